import Verif.Quad.Heap
/-!
Search results and node access of `mdds::point_quad_tree`: objects that hold plain pointers to nodes.

`search_results` shares a vector of `const node*` (point_quad_tree.hpp 200-370); `node_access` is one such pointer
(133-184).  Neither owns the nodes, so reading through them needs the heap of `Heap.lean`.

Simplifications: the shared vector is a list that never changes once the search is done, and its address is a number;
the shared pointer is null exactly if the list is empty (it is made by the first `push_back`, 361-366).  `point()` and
the default constructed value of an iterator are the point `(0, 0)` with a given datum.
-/
namespace Mdds.Quad

variable {V : Type}

/-- `search_region_node` (point_quad_tree.hpp 28-82) with `search_result_inserter` (537-550): the nodes that are reported. -/
def searchH (x1 y1 x2 y2 : Int) : Nat → Option Nat → Mem V → Outcome (List Nat)
  | _, none, _ => .ok []
  | 0, some _, _ => .ub
  | f + 1, some a, m => (m.get a).bind fun c =>
    let go (q : Quadrant) : Outcome (List Nat) := searchH x1 y1 x2 y2 f (c.kid q) m
    let two (q r : Quadrant) : Outcome (List Nat) := (go q).bind fun l1 => (go r).bind fun l2 => .ok (l1 ++ l2)
    match searchSpace c.x c.y x1 y1 x2 y2 with
    | .center => (two .ne .nw).bind fun l1 => (two .se .sw).bind fun l2 => .ok (a :: (l1 ++ l2))
    | .east => two .nw .sw
    | .north => two .se .sw
    | .northeast => go .sw
    | .northwest => go .se
    | .south => two .ne .nw
    | .southeast => go .nw
    | .southwest => go .ne
    | .west => two .ne .se

/-- `search_results` (point_quad_tree.hpp 200-370): where the vector is, and what it holds. -/
structure Found where
  at_ : Nat
  nodes : List Nat

/-- `search_results::const_iterator` (point_quad_tree.hpp 208-338): `m_cur_pos`, `m_cur_value`, `m_end_pos`. -/
structure FoundIt (V : Type) where
  res : Found
  pos : Nat
  val : Pt V
  atEnd : Bool

/-- `update_current_value` (point_quad_tree.hpp 321-326). -/
def FoundIt.update (it : FoundIt V) (m : Mem V) : Outcome (FoundIt V) :=
  (Outcome.ofOption it.res.nodes[it.pos]?).bind fun a => (m.get a).bind fun c => .ok { it with val := ⟨c.x, c.y, c.d⟩ }

/-- `begin` (point_quad_tree.hpp 346-351 with `move_to_front`, 296-308); `d0` is the default datum. -/
def Found.begin (r : Found) (d0 : V) (m : Mem V) : Outcome (FoundIt V) :=
  if r.nodes = [] then .ok ⟨r, 0, ⟨0, 0, d0⟩, true⟩
  else FoundIt.update ⟨r, 0, ⟨0, 0, d0⟩, false⟩ m

/-- `end` (point_quad_tree.hpp 353-358 with `move_to_end`, 310-319): the current value is not set. -/
def Found.fin (r : Found) (d0 : V) : FoundIt V := ⟨r, r.nodes.length - 1, ⟨0, 0, d0⟩, true⟩

/-- `operator==` (point_quad_tree.hpp 239-253). -/
def FoundIt.eq (it jt : FoundIt V) : Bool :=
  if it.res.nodes ≠ [] then decide (jt.res.nodes ≠ []) && it.res.at_ == jt.res.at_ && it.pos == jt.pos && it.atEnd == jt.atEnd
  else decide (jt.res.nodes = []) && it.atEnd == jt.atEnd

/-- `operator*` and `operator->` (point_quad_tree.hpp 255-263, 328-331). -/
def FoundIt.deref (it : FoundIt V) : Pt V := it.val

/-- `operator++` (point_quad_tree.hpp 265-281): the vector of an empty result does not exist. -/
def FoundIt.next (it : FoundIt V) (m : Mem V) : Outcome (FoundIt V) :=
  if it.res.nodes = [] then .ub
  else if it.pos + 1 = it.res.nodes.length then .ok { it with atEnd := true }
  else FoundIt.update { it with pos := it.pos + 1 } m

/-- `operator--` (point_quad_tree.hpp 283-293): from the end only the flag changes. -/
def FoundIt.prev (it : FoundIt V) (m : Mem V) : Outcome (FoundIt V) :=
  if it.atEnd then .ok { it with atEnd := false }
  else match it.pos with
    | 0 => .ub
    | k + 1 => FoundIt.update { it with pos := k } m

/-- `for (; it != last; ++it) visit(*it)`, at most `f` rounds. -/
def forward (m : Mem V) : Nat → FoundIt V → FoundIt V → Outcome (List (Pt V) × FoundIt V)
  | 0, _, _ => .ub
  | f + 1, it, last =>
    if it.eq last then .ok ([], it)
    else (it.next m).bind fun it' => (forward m f it' last).bind fun r => .ok (it.deref :: r.1, r.2)

/-- `while (it != first) visit(*--it)`, at most `f` rounds. -/
def backward (m : Mem V) : Nat → FoundIt V → FoundIt V → Outcome (List (Pt V))
  | 0, _, _ => .ub
  | f + 1, it, first =>
    if it.eq first then .ok []
    else (it.prev m).bind fun it' => (backward m f it' first).bind fun r => .ok (it'.deref :: r)

/-- `for (auto it = r.begin(); it != r.end(); ++it) visit(*it)`: what is visited, and the iterator at the end. -/
def Found.loop (r : Found) (d0 : V) (m : Mem V) : Outcome (List (Pt V) × FoundIt V) :=
  (r.begin d0 m).bind fun it => forward m (r.nodes.length + 1) it (r.fin d0)

/-- The loop backwards from a given iterator. -/
def Found.loopBack (r : Found) (d0 : V) (it : FoundIt V) (m : Mem V) : Outcome (List (Pt V)) :=
  (r.begin d0 m).bind fun it0 => backward m (r.nodes.length + 1) it it0

/-! ### Node access -/

/-- What a client sees that walks the whole tree with `node_access` (point_quad_tree.hpp 133-184): at each node its point, and what lies to
the northeast, northwest, southeast, southwest. -/
inductive Seen (V : Type) where
  | nothing
  | node (p : Pt V) (ne nw se sw : Seen V)
  deriving DecidableEq, Repr

/-- `node_access::operator bool` (168-171), `x`, `y`, `data` (155-166), and the four directions (138-153): a null pointer must not be
asked for anything else. -/
def accessH : Nat → Option Nat → Mem V → Outcome (Seen V)
  | _, none, _ => .ok .nothing
  | 0, some _, _ => .ub
  | f + 1, some a, m => (m.get a).bind fun c =>
    (accessH f c.ne m).bind fun s1 => (accessH f c.nw m).bind fun s2 => (accessH f c.se m).bind fun s3 => (accessH f c.sw m).bind fun s4 =>
      .ok (.node ⟨c.x, c.y, c.d⟩ s1 s2 s3 s4)

end Mdds.Quad
