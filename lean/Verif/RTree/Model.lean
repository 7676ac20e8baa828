/-!
Model of `mdds::rtree` (`include/mdds/rtree.hpp`, `include/mdds/rtree_def.inl`).

Simplifications, stated once here and again where they matter:
* keys are integers compared as such; they are added, subtracted, multiplied and halved by the operations of `Cfg.ar`,
  which are arbitrary.  So the theorems hold for unsigned keys that wrap around and for any key type whose values can
  be numbered in order, floating point without NaN included.  Signed overflow, which is undefined, is left out;
* a tree is an inductive value instead of heap nodes linked by addresses.  What the code stores in
  `node_store::parent` is kept as a field `par` that says where that pointer points *relative to the
  node's real place*: `null`, `right` (the enclosing node), `root` (the address of `m_root`, while
  `m_root` is not the enclosing node) or `stale` (anything else: following it is undefined behaviour);
* `valid_pointer` is kept for directory nodes only: nothing reads it on value nodes;
* `std::sort` is any function returning a permutation of its input (`Cfg.sortNodes`,
  `Cfg.sortBuckets`), so no theorem depends on how ties are ordered;
* the floating-point counts of the bulk loader are exact natural-number arithmetic.
-/
namespace Mdds.RTree

/-- `point_type` (rtree.hpp 138-148): one key per dimension. -/
abbrev Pt (D : Nat) := { l : List Int // l.length = D }

/-- `pt.d[dim]`. -/
def Pt.get {D : Nat} (p : Pt D) (i : Fin D) : Int := p.1[i.1]'(by rw [p.2]; exact i.2)

/-- A point given by its coordinates. -/
def Pt.of {D : Nat} (f : Fin D → Int) : Pt D := ⟨List.ofFn f, List.length_ofFn⟩

/-- `extent_type` (rtree.hpp 150-205). -/
structure Box (D : Nat) where
  s : Pt D
  e : Pt D
  deriving DecidableEq, Repr

/-- `extent_type()`: both points default to zeros (rtree_def.inl 371-380, 432-434). -/
def Box.zero {D : Nat} : Box D := ⟨Pt.of fun _ => 0, Pt.of fun _ => 0⟩

/-- The dimensions, in loop order. -/
def axes (D : Nat) : List (Fin D) := List.finRange D

/-- The arithmetic of the key type: any four operations. -/
structure Arith where
  add : Int → Int → Int
  sub : Int → Int → Int
  mul : Int → Int → Int
  half : Int → Int

/-- Integers without overflow; division by two truncates as in C++. -/
def Arith.exact : Arith := ⟨(· + ·), (· - ·), (· * ·), (·.tdiv 2)⟩

/-- `calc_linear_intersection` (rtree_def.inl 65-105). -/
def linearIntersection {D : Nat} (A : Arith) (i : Fin D) (a b : Box D) : Int :=
  let s1 := a.s.get i; let e1 := a.e.get i; let s2 := b.s.get i; let e2 := b.e.get i
  let (s1, e1, s2, e2) := if s1 > s2 then (s2, e2, s1, e1) else (s1, e1, s2, e2)
  let _ := s1
  if e1 < s2 then 0 else if e1 < e2 then A.sub e1 s2 else A.sub e2 s2

/-- `intersects` (rtree_def.inl 107-139). -/
def intersects {D : Nat} (a b : Box D) : Bool :=
  (axes D).all fun i =>
    let s1 := a.s.get i; let e1 := a.e.get i; let s2 := b.s.get i; let e2 := b.e.get i
    if s1 > s2 then ! decide (e2 < s1) else ! decide (e1 < s2)

/-- `calc_intersection` (rtree_def.inl 141-162): zero as soon as a length is zero, else the product. -/
def calcIntersection {D : Nat} (A : Arith) (a b : Box D) : Int :=
  match axes D with
  | [] => 0
  | i :: is =>
    if (i :: is).any fun i => decide (linearIntersection A i a b = 0) then 0
    else is.foldl (fun acc i => A.mul acc (linearIntersection A i a b)) (linearIntersection A i a b)

/-- `enlarge_extent_to_fit` (rtree_def.inl 164-187): the new parent extent. -/
def enlarge {D : Nat} (p c : Box D) : Box D :=
  ⟨Pt.of fun i => if c.s.get i < p.s.get i then c.s.get i else p.s.get i,
   Pt.of fun i => if p.e.get i < c.e.get i then c.e.get i else p.e.get i⟩

/-- `enlarge_extent_to_fit` (rtree_def.inl 164-187): the returned flag. -/
def enlarged {D : Nat} (p c : Box D) : Bool :=
  (axes D).any fun i => decide (c.s.get i < p.s.get i) || decide (p.e.get i < c.e.get i)

/-- `calc_area` (rtree_def.inl 189-201). -/
def calcArea {D : Nat} (A : Arith) (b : Box D) : Int :=
  match axes D with
  | [] => 0
  | i :: is => is.foldl (fun acc i => A.mul acc (A.sub (b.e.get i) (b.s.get i))) (A.sub (b.e.get i) (b.s.get i))

/-- `calc_square_distance` (rtree_def.inl 203-225). -/
def squareDistance {D : Nat} (A : Arith) (p q : Pt D) : Int :=
  (axes D).foldl (fun acc i =>
    let d := if p.get i > q.get i then A.sub (p.get i) (q.get i) else A.sub (q.get i) (p.get i)
    A.add acc (A.mul d d)) 0

/-- `calc_half_margin` (rtree_def.inl 232-244). -/
def halfMargin {D : Nat} (A : Arith) (b : Box D) : Int :=
  match axes D with
  | [] => 0
  | i :: is => is.foldl (fun acc i => A.add acc (A.sub (b.e.get i) (b.s.get i))) (A.sub (b.e.get i) (b.s.get i))

/-- `calc_area_enlargement` (rtree_def.inl 255-277). -/
def areaEnlargement {D : Nat} (A : Arith) (host guest : Box D) : Int :=
  if enlarged host guest then A.sub (calcArea A (enlarge host guest)) (calcArea A host) else 0

/-- `calc_extent` on a range of extents (rtree_def.inl 279-287) with the empty case of
`directory_node::calc_extent` (rtree_def.inl 900-910). -/
def ext {D : Nat} : List (Box D) → Box D
  | [] => Box.zero
  | b :: bs => bs.foldl enlarge b

/-- `get_center_point` (rtree_def.inl 289-305). -/
def center {D : Nat} (A : Arith) (b : Box D) : Pt D := Pt.of fun i => A.half (A.add (b.e.get i) (b.s.get i))

/-- `min_value_pos::assign` (rtree_def.inl 307-334); `none` is `count == 0`. -/
def assignMin {α : Type} (m : Option (Int × α)) (v : Int) (p : α) : Option (Int × α) :=
  match m with
  | none => some (v, p)
  | some (v0, p0) => if v < v0 then some (v, p) else some (v0, p0)

/-- `extent_type::contains(point)` (rtree_def.inl 465-475). -/
def Box.containsPt {D : Nat} (b : Box D) (p : Pt D) : Bool :=
  (axes D).all fun i => ! (decide (p.get i < b.s.get i) || decide (b.e.get i < p.get i))

/-- `extent_type::contains(extent)` (rtree_def.inl 477-487). -/
def Box.contains {D : Nat} (b c : Box D) : Bool :=
  (axes D).all fun i => ! (decide (c.s.get i < b.s.get i) || decide (b.e.get i < c.e.get i))

/-- `contains_at_boundary` (rtree_def.inl 495-505). -/
def Box.atBoundary {D : Nat} (b c : Box D) : Bool :=
  (axes D).any fun i => decide (b.s.get i = c.s.get i) || decide (c.e.get i = b.e.get i)

/-- Where the stored parent pointer points, relative to the node's real place. -/
inductive Par where
  | null | right | root | stale
  deriving DecidableEq, Repr

/-- `node_store` together with the node it owns (rtree.hpp 224-283, 329-372). -/
inductive Node (D : Nat) (V : Type) where
  | val (box : Box D) (par : Par) (v : V)
  | dir (leaf : Bool) (box : Box D) (par : Par) (count : Nat) (valid : Bool) (kids : List (Node D V))

variable {D : Nat} {V : Type}

namespace Node

/-- `extent`. -/
def box : Node D V → Box D
  | val b _ _ => b
  | dir _ b _ _ _ _ => b

/-- `parent`. -/
def par : Node D V → Par
  | val _ p _ => p
  | dir _ _ p _ _ _ => p

/-- `type == directory_leaf`. -/
def isLeaf : Node D V → Bool
  | val _ _ _ => false
  | dir l _ _ _ _ _ => l

/-- `count`. -/
def count : Node D V → Nat
  | val _ _ _ => 0
  | dir _ _ _ c _ _ => c

/-- `valid_pointer` of a directory node. -/
def valid : Node D V → Bool
  | val _ _ _ => true
  | dir _ _ _ _ v _ => v

/-- The children of a directory node. -/
def kids : Node D V → List (Node D V)
  | val _ _ _ => []
  | dir _ _ _ _ _ ks => ks

/-- Assignment to `parent`. -/
def setPar (p : Par) : Node D V → Node D V
  | val b _ v => val b p v
  | dir l b _ c v ks => dir l b p c v ks

/-- Assignment to `extent`. -/
def setBox (b : Box D) : Node D V → Node D V
  | val _ p v => val b p v
  | dir l _ p c v ks => dir l b p c v ks

/-- Assignment to `valid_pointer`. -/
def setValid (x : Bool) : Node D V → Node D V
  | val b p v => val b p v
  | dir l b p c _ ks => dir l b p c x ks

/-- What moving a node store to another address does to the pointers stored in its children: they
still hold the old address. -/
def moved (to : Par) : Node D V → Node D V
  | val b p v => val b p v
  | dir l b p c v ks => dir l b p c v (ks.map (setPar to))

/-- A child whose store slot was moved and whose `valid_pointer` was cleared (rtree_def.inl 809-813,
2401-2402). -/
def inval (n : Node D V) : Node D V := (n.moved .stale).setValid false

/-- `push_back` of a child and `++count` (rtree_def.inl 1349-1352, 1398-1402, 2254-2255). -/
def push (n k : Node D V) : Node D V :=
  match n with
  | val b p v => val b p v
  | dir l b p c v ks => dir l b p (c + 1) v (ks ++ [k])

/-- `node_store::pack` (rtree_def.inl 632-653): new node and "changed". -/
def pack : Node D V → Node D V × Bool
  | val b p v => (val b p v, false)
  | dir l b p c v ks =>
    let nb := ext (ks.map box)
    (dir l nb p c v ks, decide (nb ≠ b))

/- `reset_parent_pointers_of_children` (rtree_def.inl 703-720). -/
mutual
def resetKids : Node D V → Node D V
  | val b p v => val b p v
  | dir l b p c v ks => if v then dir l b p c v ks else dir l b p c true (resetList ks)
def resetList : List (Node D V) → List (Node D V)
  | [] => []
  | k :: ks => (resetKids k).setPar .right :: resetList ks
end

/-- `reset_parent_pointers` (rtree_def.inl 722-727). -/
def reset (n : Node D V) : Node D V := (n.setValid false).resetKids

/- `clone` (rtree_def.inl 551-589). -/
mutual
def clone : Node D V → Node D V
  | val b _ v => val b .null v
  | dir l b _ c _ ks => dir l b .null c false (cloneList ks)
def cloneList : List (Node D V) → List (Node D V)
  | [] => []
  | k :: ks => clone k :: cloneList ks
end

/- The value entries stored below a node, in the order `walk` meets them
(`descend_with_func`, rtree_def.inl 2492-2523). -/
mutual
def entries : Node D V → List (Box D × V)
  | val b _ v => [(b, v)]
  | dir _ _ _ _ _ ks => entriesL ks
def entriesL : List (Node D V) → List (Box D × V)
  | [] => []
  | k :: ks => entries k ++ entriesL ks
end

/-- `has_leaf_directory` (rtree_def.inl 924-934). -/
def hasLeaf (n : Node D V) : Bool := n.kids.any isLeaf

/-- `calc_overlap_cost` (rtree_def.inl 912-922). -/
def overlapCost (A : Arith) (n : Node D V) (bb : Box D) : Int :=
  n.kids.foldl (fun acc k => A.add acc (calcIntersection A k.box bb)) 0

end Node

open Node

/-- `get_child_with_minimal_overlap` (rtree_def.inl 818-860): the position picked.  Note that the
comparisons are independent tests, not a lexicographic order. -/
def pickOverlap (A : Arith) (bb : Box D) (ks : List (Node D V)) : Option Nat :=
  (ks.zipIdx.foldl (fun (st : Option (Int × Int × Int × Nat)) (ki : Node D V × Nat) =>
    let o := ki.1.overlapCost A bb
    let g := areaEnlargement A ki.1.box bb
    let a := calcArea A ki.1.box
    match st with
    | none => some (o, g, a, ki.2)
    | some (mo, mg, ma, p) =>
      if o < mo ∨ g < mg ∨ a < ma then some (o, g, a, ki.2) else some (mo, mg, ma, p)) none).map
    fun x => x.2.2.2

/-- `get_child_with_minimal_area_enlargement` (rtree_def.inl 862-898): the position picked. -/
def pickArea (A : Arith) (bb : Box D) (ks : List (Node D V)) : Option Nat :=
  (ks.zipIdx.foldl (fun (st : Option (Int × Int × Nat)) (ki : Node D V × Nat) =>
    let g := areaEnlargement A ki.1.box bb
    let a := calcArea A ki.1.box
    match st with
    | none => some (g, a, ki.2)
    | some (mg, ma, p) =>
      if g < mg ∨ a < ma then some (g, a, ki.2) else some (mg, ma, p)) none).map fun x => x.2.2

/-- How a call can fail to return. -/
inductive Fault where
  | maxDepth      -- std::runtime_error "Maximum tree depth has been reached."
  | nullDeref     -- a null node pointer is dereferenced
  | staleParent   -- a parent pointer to an invalidated address is followed
  | notFollowed   -- an execution with a wrong parent pointer that the model does not follow
  | badIterator   -- the iterator does not designate a value of this tree
  | fuel          -- the model's recursion bound (shown never to be reached)
  deriving DecidableEq, Repr

/-- `reinsertion_bucket` (rtree_def.inl 336-343). -/
structure Bucket where
  distance : Int
  pos : Nat
  deriving DecidableEq, Repr

/-- The traits (rtree.hpp 40-87), the two uses of `std::sort` and the arithmetic of the key type. -/
structure Cfg (D : Nat) (V : Type) where
  minSize : Nat
  maxSize : Nat
  maxDepth : Nat
  forced : Bool
  reinsertion : Nat
  sortNodes : (Node D V → Node D V → Bool) → List (Node D V) → List (Node D V)
  sortBuckets : (Bucket → Bucket → Bool) → List Bucket → List Bucket
  ar : Arith
  nodes_perm : ∀ lt l, (sortNodes lt l).Perm l
  buckets_perm : ∀ lt l, (sortBuckets lt l).Perm l

/-- What the `static_assert`s of the constructor require (rtree_def.inl 1240-1246, 145), and in
addition that the minimum size and the reinsertion size are not zero. -/
structure Cfg.Ok (cfg : Cfg D V) : Prop where
  dims : 0 < D
  min_pos : 1 ≤ cfg.minSize
  min_max : 2 * cfg.minSize ≤ cfg.maxSize
  reins_pos : 1 ≤ cfg.reinsertion
  reins_le : cfg.reinsertion ≤ cfg.maxSize - cfg.minSize + 1

/-- One step of the way from the root down to a node: the enclosing node with a hole between
`left` and `right`. -/
structure Frame (D : Nat) (V : Type) where
  leaf : Bool
  box : Box D
  par : Par
  count : Nat
  valid : Bool
  left : List (Node D V)
  right : List (Node D V)

/-- The enclosing node with the hole filled. -/
def Frame.plug (f : Frame D V) (n : Node D V) : Node D V :=
  .dir f.leaf f.box f.par f.count f.valid (f.left ++ n :: f.right)

/-- The whole tree around a node; the innermost frame comes first. -/
def zip : List (Frame D V) → Node D V → Node D V
  | [], n => n
  | f :: fs, n => zip fs (f.plug n)

/-- `pack_upward` (rtree_def.inl 655-661) from node `n`; returns the whole tree. -/
def packUp : List (Frame D V) → Node D V → Except Fault (Node D V)
  | fs, n =>
    match n.par, fs with
    | .null, fs => .ok (zip fs n)
    | .stale, _ => .error .staleParent
    | .root, fs => .ok (zip fs n).pack.1
    | .right, [] => .error .staleParent
    | .right, f :: fs =>
      if (f.plug n).pack.2 then packUp fs (f.plug n).pack.1 else .ok (zip fs (f.plug n).pack.1)

/-- The loop that enlarges all ancestors (rtree_def.inl 1380-1385, 1418-1423). -/
def enlargeUp (bb : Box D) : List (Frame D V) → Node D V → Except Fault (Node D V)
  | fs, n =>
    match n.par, fs with
    | .null, fs => .ok (zip fs n)
    | .stale, _ => .error .staleParent
    | .root, fs => .ok ((zip fs n).setBox (enlarge (zip fs n).box bb))
    | .right, [] => .error .staleParent
    | .right, f :: fs => enlargeUp bb fs ((f.plug n).setBox (enlarge f.box bb))

/-- `shrink_tree_upward` (rtree_def.inl 2557-2575) starting at node `n`. -/
def shrinkUp : List (Frame D V) → Node D V → Box D → Except Fault (Node D V)
  | fs, n, bb =>
    if ! n.box.atBoundary bb then .ok (zip fs n)
    else if ! n.pack.2 then .ok (zip fs n.pack.1)
    else match n.par, fs with
      | .null, fs => .ok (zip fs n.pack.1)
      | .stale, _ => .error .staleParent
      | .root, fs =>
        let r := zip fs n.pack.1
        if ! r.box.atBoundary n.box then .ok r else .ok r.pack.1
      | .right, [] => .error .staleParent
      | .right, f :: fs => shrinkUp fs (f.plug n.pack.1) n.box

/-- The comparison of `sort_dir_store_by_dimension` (rtree_def.inl 2394-2399). -/
def ltDim (i : Fin D) (a b : Node D V) : Bool :=
  if a.box.s.get i ≠ b.box.s.get i then decide (a.box.s.get i < b.box.s.get i)
  else decide (a.box.e.get i < b.box.e.get i)

/-- `sort_dir_store_by_dimension` (rtree_def.inl 2391-2403). -/
def sortByDim (cfg : Cfg D V) (i : Fin D) (ks : List (Node D V)) : List (Node D V) :=
  (cfg.sortNodes (ltDim i) ks).map inval

/-- `max_dist_size` (rtree.hpp 133). -/
def maxDist (cfg : Cfg D V) : Nat := cfg.maxSize - cfg.minSize * 2 + 2

/-- The distributions `1 … max_dist_size`. -/
def dists (cfg : Cfg D V) : List Nat := (List.range (maxDist cfg)).map (· + 1)

/-- Size of group 1 of distribution `dist` (rtree.hpp 309-322). -/
def group1 (cfg : Cfg D V) (dist : Nat) : Nat := cfg.minSize - 1 + dist

/-- The sum of half margins of all distributions (rtree_def.inl 2357-2380). -/
def sumOfMargins (cfg : Cfg D V) (ks : List (Node D V)) : Int :=
  (dists cfg).foldl (fun acc dist =>
    cfg.ar.add acc (cfg.ar.add (halfMargin cfg.ar (ext ((ks.take (group1 cfg dist)).map Node.box)))
      (halfMargin cfg.ar (ext ((ks.drop (group1 cfg dist)).map Node.box))))) 0

/-- `sort_dir_store_by_split_dimension` (rtree_def.inl 2345-2389). -/
def sortBySplitDim (cfg : Cfg D V) (ks : List (Node D V)) : List (Node D V) :=
  let r := (axes D).foldl (fun (st : Option (Int × Fin D) × List (Node D V)) i =>
    let ks := sortByDim cfg i st.2
    (assignMin st.1 (sumOfMargins cfg ks) i, ks)) (none, ks)
  match r.1 with
  | some (_, i) => sortByDim cfg i r.2
  | none => r.2

/-- `pick_optimal_distribution` (rtree_def.inl 2405-2425). -/
def pickDist (cfg : Cfg D V) (ks : List (Node D V)) : Nat :=
  match (dists cfg).foldl (fun st dist =>
      assignMin st (calcIntersection cfg.ar (ext ((ks.take (group1 cfg dist)).map Node.box))
        (ext ((ks.drop (group1 cfg dist)).map Node.box))) dist) none with
  | some (_, d) => d
  | none => 0

/-- `split_node` (rtree_def.inl 2193-2271) applied to node `n` below the given frames; returns the
whole tree. -/
def splitNode (cfg : Cfg D V) : List (Frame D V) → Node D V → Except Fault (Node D V)
  | _, .val _ _ _ => .error .nullDeref
  | [], .dir l _ p _ v ks =>
    if p ≠ .null then .error .notFollowed else
    let ks := sortBySplitDim cfg ks
    let n1 := group1 cfg (pickDist cfg ks)
    -- the children of both groups still point at `m_root`
    let k1 := (ks.take n1).map (setPar .root)
    let k2 := (ks.drop n1).map (setPar .root)
    let g1 : Node D V := (Node.dir l Box.zero .right n1 v k1).pack.1
    let g2 : Node D V := (Node.dir l Box.zero .right k2.length false k2).pack.1
    .ok (Node.dir false Box.zero .null 2 false [g1, g2] |>.pack.1 |> fun r =>
      match r with
      | .dir l b p c v ks => .dir l b p c v (ks.map resetKids)
      | r => r)
  | f :: fs, .dir l b p _ v ks =>
    match p with
    | .null => .error .notFollowed
    | .root => .error .notFollowed
    | .stale => .error .staleParent
    | .right =>
      let ks := sortBySplitDim cfg ks
      let n1 := group1 cfg (pickDist cfg ks)
      let k1 := ks.take n1
      let k2 := (ks.drop n1).map (setPar .stale)
      let g1 : Node D V := (Node.dir l b p n1 v k1).pack.1
      let g2 : Node D V := (Node.dir l Box.zero .right k2.length false k2).pack.1
      let pp := (Node.dir f.leaf f.box f.par (f.count + 1) f.valid (f.left ++ g1 :: f.right ++ [g2])).pack
      let parent : Node D V :=
        .dir f.leaf pp.1.box f.par (f.count + 1) f.valid (f.left ++ g1.reset :: f.right ++ [g2.resetKids])
      if f.count + 1 > cfg.maxSize then splitNode cfg fs parent
      else if pp.2 then packUp fs parent
      else .ok (zip fs parent)

/-- `find_leaf_directory_node_for_insertion` (rtree_def.inl 2427-2458). -/
def findLeaf (A : Arith) (bb : Box D) : Nat → Nat → List (Frame D V) → Node D V →
    Except Fault (Node D V × List (Frame D V) × Nat)
  | 0, _, _, _ => .error .maxDepth
  | _ + 1, _, _, .val _ _ _ => .error .nullDeref
  | fuel + 1, i, fs, .dir l b p c v ks =>
    if l then .ok (.dir l b p c v ks, fs, i)
    else
      let n : Node D V := .dir l b p c v ks
      match if n.hasLeaf then pickOverlap A bb ks else pickArea A bb ks with
      | none => if fuel = 0 then .error .maxDepth else .error .nullDeref
      | some j =>
        match ks[j]? with
        | none => .error .nullDeref
        | some k => findLeaf A bb fuel (i + 1) (⟨l, b, p, c, v, ks.take j, ks.drop (j + 1)⟩ :: fs) k

/-- The first half of `perform_forced_reinsertion` (rtree_def.inl 2273-2327): the entries taken out,
closest to the centre first, and the entries left. -/
def takeClosest (cfg : Cfg D V) (b : Box D) (ks : List (Node D V)) :
    List (Node D V) × List (Node D V) :=
  let c := center cfg.ar b
  let buckets := ks.zipIdx.map fun ki => Bucket.mk (squareDistance cfg.ar c (center cfg.ar ki.1.box)) ki.2
  let sorted := cfg.sortBuckets (fun x y => decide (x.distance < y.distance)) buckets
  let ps := (sorted.take cfg.reinsertion).map Bucket.pos
  (ps.filterMap (ks[·]?), (ks.zipIdx.filter fun ki => ! ps.contains ki.2).map Prod.fst)

/-- `insert(node_store&&, reinserted_depths)` (rtree_def.inl 1336-1386) together with
`perform_forced_reinsertion` (2273-2343).  `ds` is the set behind the pointer `reinserted_depths`
(`none` for the null pointer).  The recursion through forced reinsertion is bounded by `fuel`. -/
def insertNS (cfg : Cfg D V) : Nat → Node D V → Box D → V → Option (List Nat) →
    Except Fault (Node D V × Option (List Nat))
  | 0, _, _, _, _ => .error .fuel
  | fuel + 1, root, nb, nv, ds =>
    match findLeaf cfg.ar nb (cfg.maxDepth + 1) 0 [] root with
    | .error e => .error e
    | .ok (n, fs, depth) =>
      let n := n.push (.val nb .right nv)
      if n.isLeaf && decide (n.count > cfg.maxSize) then
        match ds with
        | some l =>
          if cfg.forced && ! l.contains depth then
            let (out, rest) := takeClosest cfg n.box n.kids
            let n' : Node D V :=
              .dir n.isLeaf n.box n.par (n.count - cfg.reinsertion) n.valid rest
            match if n'.pack.2 then packUp fs n'.pack.1 else .ok (zip fs n'.pack.1) with
            | .error e => .error e
            | .ok root' =>
              out.foldlM (fun (st : Node D V × Option (List Nat)) k =>
                match k with
                | .val b _ v => insertNS cfg fuel st.1 b v st.2
                | .dir .. => .error .notFollowed) (root', some (depth :: l))
          else (splitNode cfg fs n).map fun r => (r, ds)
        | none => (splitNode cfg fs n).map fun r => (r, ds)
      else
        let bb := if n.count = 1 then nb else enlarge n.box nb
        (enlargeUp bb fs (n.setBox bb)).map fun r => (r, ds)

/-- `insert(extent, value)` (rtree_def.inl 1292-1334). -/
def insert (cfg : Cfg D V) (root : Node D V) (b : Box D) (v : V) : Except Fault (Node D V) :=
  (insertNS cfg (cfg.maxDepth + 2) root b v (some [])).map Prod.fst

/-- `find_nonleaf_directory_node_for_insertion` (rtree_def.inl 2460-2490). -/
def findNonleaf (A : Arith) (bb : Box D) (maxD : Nat) : Nat → Nat → List (Frame D V) → Node D V →
    Except Fault (Node D V × List (Frame D V))
  | 0, _, _, _ => .error .maxDepth
  | _ + 1, _, _, .val _ _ _ => .error .nullDeref
  | fuel + 1, i, fs, .dir l b p c v ks =>
    let n : Node D V := .dir l b p c v ks
    if c = 0 ∨ i = maxD ∨ n.hasLeaf then .ok (n, fs)
    else match pickArea A bb ks with
      | none => .error .nullDeref
      | some j =>
        match ks[j]? with
        | none => .error .nullDeref
        | some k => findNonleaf A bb maxD fuel (i + 1) (⟨l, b, p, c, v, ks.take j, ks.drop (j + 1)⟩ :: fs) k

/-- `insert_dir` (rtree_def.inl 1388-1424). -/
def insertDir (cfg : Cfg D V) (root ns : Node D V) (maxD : Nat) : Except Fault (Node D V) :=
  match findNonleaf cfg.ar ns.box maxD (cfg.maxDepth + 1) 0 [] root with
  | .error e => .error e
  | .ok (n, fs) =>
    let n := n.push ((ns.moved .stale).setPar .right).reset
    if n.isLeaf && decide (n.count > cfg.maxSize) then splitNode cfg fs n
    else
      let bb := if n.count = 1 then ns.box else enlarge n.box ns.box
      enlargeUp bb fs (n.setBox bb)

/-- `search_results_base::entry` with the value read through the iterator
(rtree.hpp 388-410): the value node is identified by its child positions from the root. -/
structure Hit (D : Nat) (V : Type) where
  path : List Nat
  depth : Nat
  box : Box D
  v : V
  deriving DecidableEq

/- `search_descend` (rtree_def.inl 2525-2555). -/
mutual
def searchN (dc vc : Box D → Bool) (depth : Nat) (path : List Nat) : Node D V → List (Hit D V)
  | .val b _ v => if vc b then [⟨path, depth, b, v⟩] else []
  | .dir _ b _ _ _ ks => if dc b then searchL dc vc (depth + 1) path 0 ks else []
def searchL (dc vc : Box D → Bool) (depth : Nat) (path : List Nat) (i : Nat) :
    List (Node D V) → List (Hit D V)
  | [] => []
  | k :: ks => searchN dc vc depth (path ++ [i]) k ++ searchL dc vc depth path (i + 1) ks
end

/-- `search_type`. -/
inductive SearchType where
  | overlap | match_
  deriving DecidableEq

/-- `search(point, type)` (rtree_def.inl 1426-1488). -/
def searchPt (root : Node D V) (p : Pt D) : SearchType → List (Hit D V)
  | .overlap => searchN (·.containsPt p) (·.containsPt p) 0 [] root
  | .match_ => searchN (·.containsPt p) (fun b => decide (b.s = p) && decide (b.e = p)) 0 [] root

/-- `search(extent, type)` (rtree_def.inl 1490-1552). -/
def searchBox (root : Node D V) (q : Box D) : SearchType → List (Hit D V)
  | .overlap => searchN (fun b => intersects q b) (fun b => intersects q b) 0 [] root
  | .match_ => searchN (·.contains q) (fun b => decide (b = q)) 0 [] root

/-- The value node an iterator points at: its directory, its position there, and the way down. -/
def locate : List Nat → List (Frame D V) → Node D V → Option (Node D V × List (Frame D V) × Nat)
  | [i], fs, n => if i < n.kids.length then some (n, fs, i) else none
  | i :: j :: r, fs, .dir l b p c v ks =>
    match ks[i]? with
    | some k => locate (j :: r) (⟨l, b, p, c, v, ks.take i, ks.drop (i + 1)⟩ :: fs) k
    | none => none
  | _, _, _ => none

/-- `directory_node::erase` (rtree_def.inl 791-816) on the child list: erasing in the middle of a
deque moves the other elements. -/
def eraseKid (left right : List (Node D V)) : List (Node D V) :=
  if left.isEmpty || right.isEmpty then left ++ right else (left ++ right).map inval

/-- The loop that dissolves underfilled ancestors (rtree_def.inl 1617-1639).  The orphan list has
the entry to be reinserted next first. -/
def cascade (cfg : Cfg D V) : List (Frame D V) → Node D V → Nat → List (Node D V × Nat) →
    Except Fault (Node D V × List (Node D V × Nat))
  | fs, n, depth, orphans =>
    if n.par = .null ∨ cfg.minSize ≤ n.count then .ok (zip fs n, orphans)
    else match n.par, fs with
      | .right, f :: fs =>
        let orphans := n.kids.map (fun k => (k.moved .stale, depth + 1)) ++ orphans
        let p : Node D V := .dir f.leaf f.box f.par (f.count - 1) f.valid (eraseKid f.left f.right)
        cascade cfg fs p.resetKids.pack.1 (depth - 1) orphans
      | .stale, _ => .error .staleParent
      | _, _ => .error .notFollowed

/-- The root replaced by its only child (rtree_def.inl 1654-1667). -/
def collapse (root : Node D V) : Node D V :=
  if root.count = 1 then
    match root.kids with
    | [c] => ((c.moved .stale).setPar .null).reset
    | _ => root
  else root

/-- `erase_impl` (rtree_def.inl 1566-1668) on the value node an iterator designates by `path`.  The
assertions are not part of the modelled (release) behaviour: a value whose parent pointer holds the
address of `m_root` although it lies deeper is not found there, and nothing is erased. -/
def eraseAt (cfg : Cfg D V) (root : Node D V) (path : List Nat) : Except Fault (Node D V) :=
  match locate path [] root with
  | none => .error .badIterator
  | some (n, fs, i) =>
    match n.kids[i]? with
    | none => .error .badIterator
    | some x =>
      match x.par with
      | .null => .error .nullDeref
      | .stale => .error .staleParent
      | .root => shrinkUp [] root x.box
      | .right =>
        let n' : Node D V :=
          .dir n.isLeaf n.box n.par (n.count - 1) n.valid (eraseKid (n.kids.take i) (n.kids.drop (i + 1)))
        if n'.par = .null ∨ cfg.minSize ≤ n'.count then shrinkUp fs n' x.box
        else match n'.par, fs with
          | .right, f :: fs =>
            let orphans := n'.kids
            let p : Node D V := .dir f.leaf f.box f.par (f.count - 1) f.valid (eraseKid f.left f.right)
            let depth := path.length - 2
            match cascade cfg fs p.reset.pack.1 depth [] with
            | .error e => .error e
            | .ok (root1, dirs) =>
              match dirs.foldlM (fun r (d : Node D V × Nat) => insertDir cfg r d.1 d.2) root1 with
              | .error e => .error e
              | .ok root2 =>
                match orphans.reverse.foldlM (fun (r : Node D V) k =>
                    match k with
                    | .val b _ v => (insertNS cfg (cfg.maxDepth + 2) r b v none).map Prod.fst
                    | .dir .. => .error .notFollowed) root2 with
                | .error e => .error e
                | .ok root3 => .ok (collapse root3)
          | .stale, _ => .error .staleParent
          | _, _ => .error .notFollowed

/-- Default constructor and `clear` (rtree_def.inl 1237-1247, 1702-1707, 591-597). -/
def empty : Node D V := .dir true Box.zero .null 0 false []

/-- Copy constructor (rtree_def.inl 1260-1264). -/
def copy (root : Node D V) : Node D V := root.clone.reset

/-- What the move constructor, move assignment and `swap` do to a root that arrives at a new address
(rtree_def.inl 1249-1258, 1284-1290, 1694-1700). -/
def relocate (root : Node D V) : Node D V := (root.moved .stale).reset

/-- `extent()` (rtree_def.inl 1670-1674). -/
def extent (root : Node D V) : Box D := root.box

/-- `empty()` (rtree_def.inl 1676-1680). -/
def isEmpty (root : Node D V) : Bool := root.count == 0

/-- `size()` (rtree_def.inl 1682-1692). -/
def size (root : Node D V) : Nat := root.entries.length

/- `walk` (rtree_def.inl 1709-1714, 2492-2523): the node properties reported, in order; the kind is
0 for a value, 1 for a leaf directory and 2 for a non-leaf directory. -/
mutual
def walkN : Node D V → List (Nat × Box D)
  | .val b _ _ => [(0, b)]
  | .dir l b _ _ _ ks => (if l then 1 else 2, b) :: walkL ks
def walkL : List (Node D V) → List (Nat × Box D)
  | [] => []
  | k :: ks => walkN k ++ walkL ks
end

/- `check_integrity` with the default properties (rtree_def.inl 1716-1925): true when no
`integrity_error` is thrown.  `parent` is the enclosing node's type and extent. -/
mutual
def integrityN (cfg : Cfg D V) (parent : Option (Bool × Box D)) : Node D V → Bool
  | .val b p _ =>
    match parent with
    | none => false
    | some (l, pb) => decide (p = .right) && pb.contains b && l
  | .dir l b p c _ ks =>
    (match parent with
      | none => decide (p = .null)
      | some (pl, pb) => decide (p = .right) && pb.contains b && ! pl) &&
    decide (c = ks.length) &&
    ((decide (p = .null) && l) || decide (cfg.minSize ≤ c)) &&
    decide (c ≤ cfg.maxSize) &&
    decide (ext (ks.map Node.box) = b) &&
    integrityL cfg (l, b) ks
def integrityL (cfg : Cfg D V) (parent : Bool × Box D) : List (Node D V) → Bool
  | [] => true
  | k :: ks => integrityN cfg (some parent) k && integrityL cfg parent ks
end

/-- `check_integrity()` succeeds. -/
def integrityOk (cfg : Cfg D V) (root : Node D V) : Bool := integrityN cfg none root

/-! ### bulk loader -/

/-- First loop of `calc_optimal_segment_size_for_pack` (rtree_def.inl 43-50). -/
def segUp (minS maxS n : Nat) : Nat → Nat → Option Nat
  | 0, _ => none
  | fuel + 1, size =>
    if size < maxS then
      if n % size = 0 ∨ minS ≤ n % size then some size else segUp minS maxS n fuel (size + 1)
    else none

/-- Second loop of `calc_optimal_segment_size_for_pack` (rtree_def.inl 52-59). -/
def segDown (minS n : Nat) : Nat → Option Nat
  | 0 => none
  | size + 1 =>
    if minS < size + 1 then
      if n % (size + 1) = 0 ∨ minS ≤ n % (size + 1) then some (size + 1) else segDown minS n size
    else none

/-- `calc_optimal_segment_size_for_pack` (rtree_def.inl 41-63). -/
def segSize (init minS maxS n : Nat) : Nat :=
  match segUp minS maxS n (maxS - init) init with
  | some s => s
  | none => (segDown minS n (init - 1)).getD init

/-- The loop that cuts a sorted segment into pieces of `size` (rtree_def.inl 1172-1189). -/
def chunk {α : Type} (size : Nat) : Nat → List α → List (List α)
  | 0, _ => []
  | fuel + 1, l =>
    if l.isEmpty then [] else if l.length ≤ size then [l] else l.take size :: chunk size fuel (l.drop size)

/-- The comparison of `pack_level` (rtree_def.inl 1159-1165): halves are compared by doubling. -/
def ltMid (i : Fin D) (a b : Node D V) : Bool :=
  decide (a.box.e.get i + a.box.s.get i < b.box.e.get i + b.box.s.get i)

/-- One round of the dimension loop of `pack_level` (rtree_def.inl 1146-1190). -/
def cutDim (cfg : Cfg D V) (splits : Nat) (i : Fin D) (segs : List (List (Node D V))) :
    List (List (Node D V)) :=
  segs.flatMap fun seg =>
    if seg.length ≤ cfg.maxSize then [seg]
    else
      let sorted := cfg.sortNodes (ltMid i) seg
      chunk (segSize ((seg.length + splits - 1) / splits) cfg.minSize cfg.maxSize seg.length)
        seg.length sorted

/-- The dimension loop of `pack_level` (rtree_def.inl 1141-1201), with its early exit. -/
def cutAll (cfg : Cfg D V) (splits : Nat) : List (Fin D) → List (List (Node D V)) →
    List (List (Node D V))
  | [], segs => segs
  | i :: is, segs =>
    match segs with
    | [] => segs
    | s :: _ => if s.length ≤ cfg.maxSize then segs else cutAll cfg splits is (cutDim cfg splits i segs)

/-- The least number of splits per dimension that is enough (`n_splits_per_dim`, rtree_def.inl
1134-1135): the least `k` with `total ≤ k ^ D`. -/
def rootUp (D total : Nat) : Nat → Nat → Nat
  | 0, k => k
  | fuel + 1, k => if total ≤ k ^ D then k else rootUp D total fuel (k + 1)

/-- `n_splits_per_dim` for a store of `n` entries. -/
def splitsPerDim (D maxSize n : Nat) : Nat :=
  let total := (n + maxSize - 1) / maxSize
  rootUp D total total 0

/-- `pack_level` (rtree_def.inl 1129-1235). -/
def packLevel (cfg : Cfg D V) (depth : Nat) (store : List (Node D V)) : List (Node D V) :=
  (cutAll cfg (splitsPerDim D cfg.maxSize store.length) (axes D) [store]).map fun seg =>
    (Node.dir (depth == 0) Box.zero .null seg.length false (seg.map (moved .stale))).pack.1

/-- The loop of `bulk_loader::pack` (rtree_def.inl 1105-1107). -/
def packLevels (cfg : Cfg D V) : Nat → Nat → List (Node D V) → Except Fault (Nat × List (Node D V))
  | 0, _, _ => .error .fuel
  | fuel + 1, depth, store =>
    if cfg.maxSize < store.length then packLevels cfg fuel (depth + 1) (packLevel cfg depth store)
    else .ok (depth, store)

/-- `bulk_loader::insert …; pack()` (rtree_def.inl 1064-1127). -/
def bulkLoad (cfg : Cfg D V) (vals : List (Box D × V)) : Except Fault (Node D V) :=
  match packLevels cfg (vals.length + 1) 0 (vals.map fun x => .val x.1 .null x.2) with
  | .error e => .error e
  | .ok (depth, store) =>
    .ok ((Node.dir (depth == 0) Box.zero .null store.length false store).pack.1.moved .stale).reset

end Mdds.RTree
