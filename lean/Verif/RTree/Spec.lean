import Verif.RTree.Model
/-!
Specification vocabulary for `mdds::rtree`: geometry without reference to the code's comparison
loops, and the shape invariants.
-/
namespace Mdds.RTree

variable {D : Nat} {V : Type}

/-- The point lies in the box (edges included). -/
def Inside (p : Pt D) (b : Box D) : Prop := ∀ i, b.s.get i ≤ p.get i ∧ p.get i ≤ b.e.get i

/-- A proper extent: start does not exceed end in any dimension (documented precondition). -/
def Box.Valid (b : Box D) : Prop := ∀ i, b.s.get i ≤ b.e.get i

/-- Two boxes overlap when they share a point. -/
def Overlap (a b : Box D) : Prop := ∃ p, Inside p a ∧ Inside p b

/-- `box` covers every box of the list. -/
def Covers (box : Box D) (l : List (Box D)) : Prop :=
  ∀ b ∈ l, ∀ i, box.s.get i ≤ b.s.get i ∧ b.e.get i ≤ box.e.get i

/-- Every face of `box` is touched by some box of the list. -/
def Attained (box : Box D) (l : List (Box D)) : Prop :=
  ∀ i, (∃ b ∈ l, b.s.get i = box.s.get i) ∧ ∃ b ∈ l, b.e.get i = box.e.get i

/-- `box` is the exact bounding box of the list; of the empty list, the default extent. -/
def Bounding (box : Box D) (l : List (Box D)) : Prop :=
  Covers box l ∧ (l = [] → box = Box.zero) ∧ (l ≠ [] → Attained box l)

/-- `box` covers the list and, when `τ` holds, is its exact bounding box. -/
def Fits (τ : Prop) (box : Box D) (l : List (Box D)) : Prop := Covers box l ∧ (τ → Bounding box l)

/-- Parameters of the shape invariant: whether boxes are exact, the least and greatest number of
children of a node that is not the root, and the least number of children of a root that is not a
leaf directory. -/
structure Shape where
  tight : Prop
  lo : Nat
  hi : Nat
  rlo : Nat

/-- A directory node of height `h` (0 for a leaf directory) is well formed: `count` is the number of
children, its box fits, a leaf directory holds value nodes with proper extents, any other one holds
directory nodes of height `h - 1`, and every child's parent pointer is right. -/
def WFN (S : Shape) : Nat → Node D V → Prop
  | _, .val _ _ _ => False
  | 0, .dir l b _ c _ ks =>
    l = true ∧ c = ks.length ∧ Fits S.tight b (ks.map Node.box) ∧
      ∀ k ∈ ks, ∃ kb kv, k = .val kb .right kv ∧ kb.Valid
  | h + 1, .dir l b _ c _ ks =>
    l = false ∧ c = ks.length ∧ Fits S.tight b (ks.map Node.box) ∧
      ∀ k ∈ ks, k.par = .right ∧ S.lo ≤ k.count ∧ k.count ≤ S.hi ∧ WFN S h k

/-- A well-formed tree of height `h`. -/
structure WFR (S : Shape) (h : Nat) (root : Node D V) : Prop where
  wfn : WFN S h root
  par : root.par = .null
  hi : root.count ≤ S.hi
  rlo : 0 < h → S.rlo ≤ root.count

/-- All boxes exact, all occupancy bounds of the traits. -/
def strict (cfg : Cfg D V) : Shape := ⟨True, cfg.minSize, cfg.maxSize, 2⟩

/-- Boxes cover their contents (not necessarily exactly), all occupancy bounds of the traits. -/
def covering (cfg : Cfg D V) : Shape := ⟨False, cfg.minSize, cfg.maxSize, 2⟩

/-- Following the child positions `path` from a node leads to the value `v` stored with box `b`. -/
def At : Node D V → List Nat → Box D → V → Prop
  | .val b' _ v', [], b, v => b' = b ∧ v' = v
  | .dir _ _ _ _ _ ks, i :: r, b, v => ∃ k, ks[i]? = some k ∧ At k r b v
  | _, _, _, _ => False

/- Every directory of the tree, the node itself first. -/
mutual
def dirs : Node D V → List (Node D V)
  | .val _ _ _ => []
  | .dir l b p c v ks => .dir l b p c v ks :: dirsL ks
def dirsL : List (Node D V) → List (Node D V)
  | [] => []
  | k :: ks => dirs k ++ dirsL ks
end

open Classical in
/-- A result set is exact for the contents `l` and the condition `P`: the hits are the stored entries
whose box meets `P`, with multiplicity; no position is reported twice; every reported position leads
to the reported value, at the reported depth. -/
structure Exact (t : Node D V) (l : List (Box D × V)) (P : Box D → Prop) (hits : List (Hit D V)) : Prop where
  contents : (hits.map fun x => (x.box, x.v)).Perm (l.filter fun e => decide (P e.1))
  once : (hits.map Hit.path).Nodup
  places : ∀ x ∈ hits, At t x.path x.box x.v ∧ x.depth = x.path.length

end Mdds.RTree
