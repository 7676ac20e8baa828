import Verif.RTree.Demo
/-!
Tests, not proofs: the unit tests in `/repo/test/rtree` replayed on the model.  The model sorts with
insertion sort here; `std::sort` may order ties differently, which none of these assertions depends
on.  Tests with fractional keys are scaled to integers.
-/
namespace Mdds.RTree.Tests

/-- `tiny_trait_2d` and `tiny_trait_2d_forced_reinsertion` (test_global_rtree.hpp). -/
def tiny (forced : Bool) : Cfg 2 Nat := demoCfg 2 5 2 forced

/-- The default traits (rtree.hpp 53-69). -/
def dflt : Cfg 2 Nat := demoCfg 40 100 30 true

def pt (x y : Int) : Pt 2 := ⟨[x, y], rfl⟩

/-- Boxes of side `s` on an `n` by `n` grid, `x` outermost. -/
def grid (n s : Nat) : List (Op 2 Nat) :=
  (List.range n).flatMap fun x => (List.range n).map fun y =>
    .insert (bx (x * s : Nat) (y * s : Nat) (x * s + s : Nat) (y * s + s : Nat)) (x * n + y)

-- rtree_test_area_enlargement (test_geometry.cpp 8-40)
example : areaEnlargement .exact (bx 0 0 2 2) (bx 2 2 3 3) = 5 ∧ areaEnlargement .exact (bx 0 0 2 2) (bx 0 1 1 2) = 0 ∧
    areaEnlargement .exact (bx 0 0 3 3) (bx (-3) 1 7 2) = 21 ∧ areaEnlargement .exact (bx 0 0 0 0) (bx (-1) (-1) 0 0) = 1 ∧
    areaEnlargement .exact (bx 0 0 1 1) (bx (-4) (-3) (-3) (-2)) = 19 := by decide

-- rtree_test_center_point (test_geometry.cpp 43-70)
example : center .exact (bx 0 0 2 2) = pt 1 1 ∧ center .exact (bx (-2) (-4) 2 4) = pt 0 0 ∧ center .exact (bx 3 5 8 10) = pt 5 7 := by
  decide

-- rtree_test_intersection (test_intersection.cpp 8-60)
example : ∀ c ∈ [(bx 0 0 3 6, bx 1 2 7 5, 2, 3), (bx 3 2 7 10, bx 1 10 10 11, 4, 0), (bx 3 2 7 10, bx 1 9 10 11, 4, 1),
      (bx 3 2 7 6, bx 5 4 11 8, 2, 2), (bx (-2) (-8) 2 (-5), bx 0 (-10) 8 (-1), 2, 3),
      (bx 2 2 20 12, bx 5 6 16 9, 11, 3), (bx 0 0 6 6, bx 0 0 2 3, 2, 3)],
    linearIntersection .exact 0 c.1 c.2.1 = c.2.2.1 ∧ linearIntersection .exact 1 c.1 c.2.1 = c.2.2.2 ∧
    calcIntersection .exact c.1 c.2.1 = c.2.2.1 * c.2.2.2 ∧ linearIntersection .exact 0 c.2.1 c.1 = c.2.2.1 ∧
    linearIntersection .exact 1 c.2.1 c.1 = c.2.2.2 ∧ calcIntersection .exact c.2.1 c.1 = c.2.2.1 * c.2.2.2 := by decide

-- rtree_test_square_distance (test_square_distance.cpp)
example : squareDistance .exact (pt 0 0) (pt 0 0) = 0 ∧ squareDistance .exact (pt 0 0) (pt 1 1) = 2 ∧
    squareDistance .exact (pt 0 0) (pt 2 2) = 8 ∧ squareDistance .exact (pt 3 0) (pt 0 4) = 25 ∧
    squareDistance .exact (pt 0 4) (pt 3 0) = 25 ∧ squareDistance (D := 1) .exact ⟨[3], rfl⟩ ⟨[5], rfl⟩ = 4 ∧
    squareDistance (D := 1) .exact ⟨[9], rfl⟩ ⟨[2], rfl⟩ = 49 := by decide

-- rtree_test_basic_search (test_basic.cpp 10-77)
example : okAnd (runOps dflt empty [.insert (bx 0 0 2 2) 1, .insert (bx 3 3 5 5) 2, .insert (bx (-2) 1 3 6) 3])
    (fun t => decide (extent t = bx (-2) 0 5 6 ∧ size t = 3 ∧ integrityOk dflt t = true ∧
      (searchPt t (pt 1 1) .overlap).map (fun h => (h.v, h.box, h.depth)) = [(1, bx 0 0 2 2, 1), (3, bx (-2) 1 3 6, 1)] ∧
      searchPt t (pt (-10) (-10)) .overlap = [] ∧ searchPt t (pt 1 7) .overlap = [] ∧
      searchPt t (pt 6 3) .overlap = [])) = true := by decide +kernel

-- rtree_test_basic_erase (test_basic.cpp 80-125)
example : okAnd (runOps dflt empty [.insert (bx (-2) (-2) 2 2) 1, .erase (px 0 0) 0])
    (fun t => decide (isEmpty t = true ∧ size t = 0 ∧ extent t = Box.zero)) = true ∧
  okAnd (runOps dflt empty [.insert (bx (-2) (-2) 2 2) 1, .erase (px 0 0) 0, .insert (bx 0 0 2 2) 1,
      .insert (bx (-10) (-4) 0 0) 2, .erase (px (-5) (-2)) 0])
    (fun t => decide (isEmpty t = false ∧ size t = 1 ∧ extent t = bx 0 0 2 2 ∧ integrityOk dflt t = true)) = true := by
  decide +kernel

/-- The numbers of values, leaf directories and other directories `walk` reports. -/
def counts (t : Node 2 Nat) : Nat × Nat × Nat :=
  (((walkN t).filter (·.1 == 0)).length, ((walkN t).filter (·.1 == 1)).length, ((walkN t).filter (·.1 == 2)).length)

/-- Boxes along the diagonal. -/
def diagonal (n : Nat) : List (Op 2 Nat) :=
  (List.range n).map fun i => .insert (bx (i : Nat) (i : Nat) (i + 1 : Nat) (i + 1 : Nat)) i

-- rtree_test_node_split (test_node_split.cpp)
example : okAnd (runOps (tiny false) empty (diagonal 6)) (fun t => decide (counts t = (6, 2, 1)) && integrityOk (tiny false) t) = true ∧
    okAnd (runOps (tiny false) empty (diagonal 8)) (fun t => decide (counts t = (8, 3, 1)) && integrityOk (tiny false) t) = true ∧
    okAnd (runOps (tiny false) empty (diagonal 8 ++ [.erase (px 0 0) 0]))
      (fun t => decide (counts t = (7, 2, 1)) && integrityOk (tiny false) t) = true := by decide +kernel

-- rtree_test_directory_node_split (test_directory_node_split.cpp), on a 6 by 6 grid
example : okAnd (runOps (tiny false) empty (grid 6 1)) (fun t => decide (size t = 36) && integrityOk (tiny false) t &&
    ((searchPt t (pt 5 5) .overlap).all fun h => decide (h.depth = 3))) = true := by decide +kernel

/-- The erase loop of `rtree_test_erase_directories`. -/
def eraseLoop : List Nat → Node 2 Nat → Bool
  | [], t => isEmpty t
  | i :: is, t =>
    let q := pt ((i / 5) * 2 + 1 : Nat) ((i % 5) * 2 + 1 : Nat)
    match searchPt t q .overlap with
    | [h] => okAnd (eraseAt (tiny false) t h.path) fun t' =>
        decide (size t = size t' + 1) && integrityOk (tiny false) t' && (searchPt t' q .overlap).isEmpty && eraseLoop is t'
    | _ => false

-- rtree_test_erase_directories (test_erase_directories.cpp): the whole loop
example : okAnd (runOps (tiny false) empty (grid 5 2))
    (fun t => decide (size t = 25) && integrityOk (tiny false) t && eraseLoop (List.range 25) t) = true := by
  decide +kernel

-- rtree_test_forced_reinsertion (test_forced_reinsertion.cpp)
example : okAnd (runOps (tiny true) empty (diagonal 6)) (fun t => decide (size t = 6) && integrityOk (tiny true) t) = true ∧
    okAnd (runOps (tiny true) empty (grid 5 2)) (fun t => decide (size t = 25) && integrityOk (tiny true) t) = true := by
  decide +kernel

-- rtree_test_move (test_move.cpp)
example : okAnd (runOps (tiny true) empty (grid 5 2 ++ [.move, .move]))
    (fun t => decide (size t = 25) && integrityOk (tiny true) t) = true := by decide +kernel

-- rtree_test_copy, rtree_test_move_custom_type (test_copy.cpp, test_move.cpp): keys times ten
def inputs : List (Op 2 Nat) :=
  [.insert (bx 0 0 10 10) 10, .insert (bx 20 20 21 21) 24, .insert (bx 1000 800 1010 850) 1000,
   .insert (bx 10 750 20 780) 650, .insert (bx 10 800 20 820) 680, .insert (bx 12 10 22 15) 21,
   .insert (bx 22 22 23 24) 35, .insert (bx 30 30 33 34) 38, .insert (bx 40 40 83 124) 138,
   .insert (bx 30 50 43 114) 139]

example : okAnd (runOps (tiny true) empty inputs) (fun t => decide (size t = 10) && integrityOk (tiny true) t &&
    integrityOk (tiny true) (copy t) && decide (walkN (copy t) = walkN t) && integrityOk (tiny true) (relocate t)) = true := by
  decide +kernel

-- rtree_test_exact_search_by_extent (test_exact_search_by_extent.cpp)
example : okAnd (runOps dflt empty [.insert (bx 0 0 2 2) 11, .insert (bx 1 1 3 3) 12, .insert (bx 2 2 4 4) 13])
    (fun t => decide ((searchBox t (bx 1 1 3 3) .overlap).length = 3 ∧
      (searchBox t (bx 1 1 3 3) .match_).map (fun h => (h.v, h.box, h.depth)) = [(12, bx 1 1 3 3, 1)])) = true := by
  decide +kernel

-- rtree_test_exact_search_by_point (test_exact_search_by_point.cpp)
example : okAnd (runOps dflt empty [.insert (bx 0 0 4 4) 10, .insert (px 1 1) 11, .insert (px 3 3) 33])
    (fun t => decide ((searchPt t (pt 1 1) .overlap).length = 2 ∧ (searchPt t (pt 3 3) .overlap).length = 2 ∧
      (searchPt t (pt 2 2) .overlap).map Hit.v = [10] ∧ (searchPt t (pt 1 1) .match_).map Hit.v = [11] ∧
      (searchPt t (pt 3 3) .match_).map Hit.v = [33] ∧ (searchBox t (bx 0 0 4 4) .match_).map Hit.v = [10])) = true := by
  decide +kernel

-- rtree_test_point_objects (test_point_objects.cpp), on a 6 by 6 grid
example : okAnd (runOps (tiny true) empty ((List.range 6).flatMap fun x => (List.range 6).map fun y =>
      .insert (px (x : Nat) (y : Nat)) (x * y)))
    (fun t => integrityOk (tiny true) t && ((List.range 6).all fun x => (List.range 6).all fun y =>
        decide ((searchPt t (pt (x : Nat) (y : Nat)) .overlap).map Hit.v = [x * y])) &&
      decide ((searchBox t (bx 0 0 3 3) .overlap).length = 16)) = true := by decide +kernel

-- rtree_test_bl_empty, rtree_test_bl_insert_points_copy (test_bulkload_main.cpp)
example : okAnd (bulkLoad (tiny true) []) (fun t => isEmpty t && integrityOk (tiny true) t) = true := by decide +kernel

def blPoints : List (Box 2 × Nat) :=
  [(px 0 0, 1), (px 125 125, 2), (px 22 987, 3), (px (-34) (-200), 4), (px 2 3, 5)]

example : (List.range 5).all (fun n => okAnd (bulkLoad (tiny true) (blPoints.take (n + 1))) (fun t =>
    integrityOk (tiny true) t && decide (size t = n + 1) && (blPoints.take (n + 1)).all fun e =>
      decide ((searchPt t e.1.s .match_).map (fun h => (h.v, h.depth)) = [(e.2, 1)]))) = true := by decide +kernel

-- rtree_test_bl_insert_extents_move (test_bulkload_main.cpp)
def blExtents : List (Box 2 × Nat) :=
  ([(2142, 2777, 1781, 1273), (5063, 2396, 765, 1019), (1887, 4935, 1400, 892), (4428, 4046, 1527, 1146),
    (2268, 6713, 1146, 2162), (7729, 7094, 2924, 1908), (10396, 2014, 6480, 892), (3158, 12302, 2035, 2289),
    (10777, 11032, 3432, 2289), (14334, 5063, 1781, 2797), (8365, 4301, 3051, 1019), (16619, 11794, 638, 511),
    (15222, 9254, 892, 511), (8111, 10142, 765, 638), (6587, 10397, 765, 511), (7475, 11793, 638, 1146),
    (8746, 11285, 765, 892), (16620, 3665, 511, 2162), (6332, 14714, 2162, 1908), (1634, 12048, 765, 5083),
    (15349, 16238, 1400, 1400), (11666, 14587, 1400, 1146)] : List (Int × Int × Int × Int)).zipIdx.map
    fun x => (bx x.1.1 x.1.2.1 (x.1.1 + x.1.2.2.1) (x.1.2.1 + x.1.2.2.2), x.2)

example : (List.range 18).all (fun n => okAnd (bulkLoad (tiny true) (blExtents.take (n + 5))) (fun t =>
    integrityOk (tiny true) t && decide (size t = n + 5) && (blExtents.take (n + 5)).all fun e =>
      decide ((searchBox t e.1 .match_).map Hit.v = [e.2]))) = true := by decide +kernel

-- rtree_test_bl_insert_points_move (test_bulkload_main.cpp), on a 9 by 9 grid less one point
example : okAnd (bulkLoad (tiny true) (((List.range 9).flatMap fun x => (List.range 9).map fun y =>
      (px (x : Nat) (y : Nat), x * y)).drop 1))
    (fun t => integrityOk (tiny true) t && decide (size t = 80)) = true := by decide +kernel

end Mdds.RTree.Tests
