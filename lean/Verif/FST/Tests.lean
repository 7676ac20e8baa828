import Verif.FST.Model

/-!
# flat_segment_tree: replayed unit tests (tests, not proofs)

Expected values are those of `test/flat_segment_tree/test_main.cpp`; they guard the reading of the
code.  `keysVals st` gives the keys and values that `check_leaf_nodes` compares (the value of the
last node is not compared there).
-/
namespace Mdds.FST.Tests
open Mdds.FST

def keysVals {V : Type} [DecidableEq V] (o : Outcome (State V)) : Option (List Int × List V) :=
  match o with
  | .ok st => some (st.leaves.map (·.1), st.leaves.dropLast.map (·.2))
  | _ => none

/-- test_main.cpp 259-323 -/
def treeSearch : State Int :=
  match run (mk 0 0 200 0) [.insertBack 5 10 2, .insertBack 15 18 3, .insertBack 23 28 4, .buildTree] with
  | .ok st => st
  | _ => mk 0 0 200 0

example : searchTree treeSearch 0 = .ok (some ⟨0, 0, 0, 5⟩) := by decide +kernel
example : searchTree treeSearch 6 = .ok (some ⟨1, 2, 5, 10⟩) := by decide +kernel
example : searchTree treeSearch 17 = .ok (some ⟨3, 3, 15, 18⟩) := by decide +kernel
example : searchTree treeSearch 55 = .ok (some ⟨6, 0, 28, 200⟩) := by decide +kernel
example : searchTree treeSearch 210 = .ok none := by decide +kernel

/-- test_main.cpp 719-734 -/
def sl1 : List (Op Int) :=
  [.insertFront 0 1 5, .insertFront 1 6 10, .insertFront 10 20 400, .insertFront 30 40 400]
example : keysVals (run (mk 0 0 100 0) sl1) =
    some ([0, 1, 6, 10, 20, 30, 40, 100], [5, 10, 0, 400, 0, 400, 0]) := by decide
example : keysVals (run (mk 0 0 100 0) (sl1 ++ [.shiftLeft 20 30])) =
    some ([0, 1, 6, 10, 30, 100], [5, 10, 0, 400, 0]) := by decide

/-! test_main.cpp 740-803 -/
example : keysVals (run (mk false 0 100 false) [.shiftLeft 2 100]) = some ([0, 100], [false]) := by decide
example : keysVals (run (mk false 0 100 false) [.insertFront 20 100 true, .shiftLeft 80 100]) =
    some ([0, 20, 80, 100], [false, true, false]) := by decide
example : keysVals (run (mk false 0 100 false) [.insertFront 20 100 true, .shiftLeft 80 100, .shiftLeft 85 100]) =
    some ([0, 20, 80, 100], [false, true, false]) := by decide
example : (match run (mk false 0 100 false)
    [.insertFront 20 100 true, .shiftLeft 80 100, .buildTree, .shiftLeft 85 100] with
    | .ok st => st.valid | _ => false) = true := by decide +kernel
example : keysVals (run (mk false 0 100 false)
    [.insertFront 20 100 true, .shiftLeft 80 100, .shiftLeft 85 100, .insertFront 85 100 true, .shiftLeft 90 95]) =
    some ([0, 20, 80, 85, 95, 100], [false, true, false, true, false]) := by decide

/-! test_main.cpp 805-849 -/
example : keysVals (run (mk false 0 100 false) [.insertFront 0 100 true, .shiftLeft 10 20]) =
    some ([0, 90, 100], [true, false]) := by decide
example : keysVals (run (mk false 0 100 false) [.insertFront 0 100 true, .shiftLeft 10 20,
    .insertFront 0 10 true, .insertFront 10 20 false, .insertFront 20 60 true, .insertFront 60 80 false,
    .insertFront 80 100 true, .shiftLeft 0 70]) = some ([0, 10, 30, 100], [false, true, false]) := by decide

/-! test_main.cpp 851-960 -/
def sr1 : List (Op Int) :=
  [.insertFront 0 10 15, .insertFront 10 20 1, .insertFront 20 30 2, .insertFront 30 40 3,
   .insertFront 40 50 4, .insertFront 50 60 5, .insertFront 60 70 6, .insertFront 70 80 7,
   .insertFront 80 90 8, .shiftRight 0 5 false]
example : keysVals (run (mk 0 0 100 0) sr1) =
    some ([0, 5, 15, 25, 35, 45, 55, 65, 75, 85, 95, 100], [0, 15, 1, 2, 3, 4, 5, 6, 7, 8, 0]) := by decide
example : keysVals (run (mk 0 0 100 0) (sr1 ++ [.shiftRight 0 5 false])) =
    some ([0, 10, 20, 30, 40, 50, 60, 70, 80, 90, 100], [0, 15, 1, 2, 3, 4, 5, 6, 7, 8]) := by decide
example : keysVals (run (mk 0 0 100 0) (sr1 ++ [.shiftRight 0 5 false, .shiftRight 0 49 false])) =
    some ([0, 59, 69, 79, 89, 99, 100], [0, 15, 1, 2, 3, 4]) := by decide
example : keysVals (run (mk 0 0 100 0) [.insertFront 5 10 5, .insertFront 20 30 5, .shiftRight 6 20 false]) =
    some ([0, 5, 30, 40, 50, 100], [0, 5, 0, 5, 0]) := by decide
example : keysVals (run (mk 0 0 100 0)
    [.insertFront 5 10 5, .insertFront 20 30 5, .shiftRight 6 20 false, .shiftRight 5 20 false]) =
    some ([0, 25, 50, 60, 70, 100], [0, 5, 0, 5, 0]) := by decide
example : keysVals (run (mk 0 0 100 0) [.insertFront 5 10 5, .insertFront 20 30 5, .shiftRight 6 20 false,
    .shiftRight 5 20 false, .shiftRight 65 40 false]) =
    some ([0, 25, 50, 60, 100], [0, 5, 0, 5]) := by decide

end Mdds.FST.Tests
