import Verif.Quad.Props

/-!
Tests, not proofs: scenarios of `test/point_quad_tree/test_main.cpp` replayed on the model.
-/
namespace Mdds.Quad.Tests

/-- pqt_test_basic, 35-111. -/
def basic : List (Op Char) :=
  [.insert 25 32 'A', .insert 5 45 'B', .insert 52 10 'C', .insert 80 5 'D', .insert 40 50 'E',
   .insert 10 10 'F', .insert 20 20 'G', .insert 80 80 'H', .insert 58 46 'I', .insert 36 55 'J',
   .insert 26 52 'K', .insert 38 68 'L', .insert 39 78 'M', .insert 72 52 'N']

example : (runOps .nil basic).map size = .ok 14 := by decide +kernel
example : (runOps .nil (basic ++ [.remove 20 20, .remove 40 50])).map size = .ok 12 := by
  decide +kernel

/-- The 100 points of pqt_test_insertion_removal, 113-174. -/
def grid : List (Int × Int) :=
  (List.range 10).flatMap fun i => (List.range 10).map fun j => ((i : Int) * 10 + 1, (j : Int) * 10 + 1)

/-- Sizes after each removal. -/
def removalSizes (t : Tree Nat) : List (Int × Int) → List Nat
  | [] => []
  | p :: ps => match removePt t p.1 p.2 with
    | .ok t' => size t' :: removalSizes t' ps
    | _ => []

example : removalSizes (grid.foldl (fun t p => insertPt p.1 p.2 0 t) .nil) grid
    = (List.range 100).reverse := by decide +kernel

/-- pqt_test_remove_root, 176-217. -/
example : (runOps .nil [.insert 10 10 'O', .insert 20 0 'a', .insert 0 0 'b', .insert 20 20 'c',
    .insert 0 20 'd', .remove 10 10]).map (fun t => equals t
      (insertPt 20 0 'a' (insertPt 0 0 'b' (insertPt 20 20 'c' (insertPt 0 20 'd' .nil))))) = .ok true := by
  decide +kernel

end Mdds.Quad.Tests
