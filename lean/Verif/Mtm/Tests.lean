import Verif.Mtm.Equal

/-!
Tests, not proofs: scenarios of `test/multi_type_matrix/test_main.cpp` and `test_walk.cpp` replayed on
the model.  Doubles are written without the decimal point (1.1 is 11), strings as numbers.
-/
namespace Mdds.Mtm.Tests
open Mdds.Mtm

abbrev X := Mtx Nat Nat Nat
abbrev C := MCall Nat Nat Nat

def run (m : X) (cs : List C) : X := (runAll cs m).getD mk0

/-- The elements of the matrix, column by column. -/
def show_ (m : X) : Nat × Nat × List (Elem Nat Nat Nat) :=
  (m.rows, m.cols, (Mtv.contents m.store).map fun c => c.map (·.2))

def num (n : Nat) : Elem Nat Nat Nat := some (.num n)
def str (n : Nat) : Elem Nat Nat Nat := some (.str n)
def bool (b : Bool) : Elem Nat Nat Nat := some (.bool b)

def ofOutcome (o : Outcome X) : X := match o with | .ok m => m | _ => mk0

/-- mtm_test_data_insertion_multiple_elements: set_column, 257-290. -/
def colTest : X := run (mkSize 3 5) [.setColumn 2 (.nums [11, 12])]
example : show_ colTest = (3, 5, List.replicate 6 none ++ [num 11, num 12, none] ++ List.replicate 6 none) := by decide +kernel
example : show_ (run colTest [.setColumn 2 (.nums [21, 22, 23])])
    = (3, 5, List.replicate 6 none ++ [num 21, num 22, num 23] ++ List.replicate 6 none) := by decide +kernel
example : show_ (run colTest [.setColumn 2 (.nums [21, 22, 23]), .setColumn 2 (.nums [31, 32, 33, 34])])
    = (3, 5, List.replicate 6 none ++ [num 31, num 32, num 33] ++ List.replicate 6 none) := by decide +kernel

/-- mtm_test_data_insertion_integer, 293-366. -/
def cv : Conv Nat Nat := ⟨0, id, fun b => if b then 1 else 0, id, fun n => n != 0⟩
def intTest : X := run (mkSize 2 2) [.set 0 0 (.int 0), .set 1 1 (.int 22), .set 0 1 (.num 10), .set 1 0 (.num 22)]
example : [(0, 0), (1, 1), (0, 1), (1, 0)].map (fun p => getInteger cv intTest p.1 p.2)
    = [0, 22, 10, 22].map fun v => .ok v intTest := by decide +kernel
example : [(0, 0), (1, 1), (0, 1), (1, 0)].map (fun p => getBoolean cv intTest p.1 p.2)
    = [false, true, true, true].map fun v => .ok v intTest := by decide +kernel
example : numeric intTest = .ok true := by decide +kernel
def intTest2 : X := match position intTest none 0 1 with
  | .ok p _ => run intTest [.setAt p (.int 987)]
  | _ => mk0
example : (walk intTest2).map (fun n => (n.ty, n.size)) = [(some tInt, 1), (some tNum, 1), (some tInt, 2)] := by decide +kernel
example : (walk intTest2)[2]?.map Node.elems = some [some (.int 987), some (.int 22)] := by decide +kernel

/-- mtm_test_set_empty, 368-440. -/
example : show_ (run (ofOutcome (mkFill 3 5 (.num 12))) [.setColumnEmpty 2])
    = (3, 5, List.replicate 6 (num 12) ++ [none, none, none] ++ List.replicate 6 (num 12)) := by decide +kernel
example : show_ (run (ofOutcome (mkFill 3 5 (.num 12))) [.setRowEmpty 1])
    = (3, 5, (List.replicate 5 [num 12, none, num 12]).flatten) := by decide +kernel
def emptyTest : X := run (ofOutcome (mkFill 5 3 (.str 1))) [.setEmptyLen 1 0 6]
example : show_ emptyTest = (5, 3, str 1 :: List.replicate 6 none ++ List.replicate 8 (str 1)) := by decide +kernel
example : setEmptyLen emptyTest 2 2 0 = .err .general emptyTest := by decide +kernel

/-- mtm_test_transpose, 465-485. -/
def flipTest : X := run (mkSize 3 6) [.set 0 0 (.num 11), .set 1 0 (.num 12), .set 2 0 (.num 13), .set 1 5 (.str 1),
  .set 2 3 (.bool true), .transpose]
example : (flipTest.rows, flipTest.cols) = (6, 3) ∧
    [(0, 0), (0, 1), (0, 2)].map (fun p => get flipTest tNum p.1 p.2) = [11, 12, 13].map (fun v => .ok (some (.num v)) flipTest) ∧
    get flipTest tStr 5 1 = .ok (some (.str 1)) flipTest ∧ get flipTest tBool 3 2 = .ok (some (.bool true)) flipTest := by
  decide +kernel

/-- mtm_test_resize, 487-570. -/
def sizeTest : X := run (mkSize 0 0) [.resize 1 3]
example : show_ sizeTest = (1, 3, [none, none, none]) ∧ empty sizeTest = false ∧ empty (mkSize 0 0 : X) = true := by decide +kernel
def sizeTest2 : X := run sizeTest [.set 0 0 (.num 11), .set 0 1 (.str 1), .set 0 2 (.bool true), .resize 2 4]
example : show_ sizeTest2 = (2, 4, [num 11, none, str 1, none, bool true, none, none, none]) := by decide +kernel
example : show_ (run sizeTest2 [.resize 2 2]) = (2, 2, [num 11, none, str 1, none]) := by decide +kernel
example : [[.resize 2 0], [.resize 2 2, .resize 0 2], [.resize 2 2, .resize 0 0]].map (fun cs => show_ (run sizeTest2 cs))
    = List.replicate 3 (0, 0, []) := by decide +kernel
def sizeTest3 : X := run sizeTest2 [.resize 0 0, .resizeFill 3 2 (.num 125)]
example : show_ sizeTest3 = (3, 2, List.replicate 6 (num 125)) := by decide +kernel
example : show_ (run sizeTest3 [.resizeFill 2 1 (.bool true)]) = (2, 1, [num 125, num 125]) := by decide +kernel
example : show_ (run sizeTest3 [.resizeFill 2 1 (.bool true), .resizeFill 3 2 (.str 9)])
    = (3, 2, [num 125, num 125, str 9, str 9, str 9, str 9]) := by decide +kernel

/-- mtm_test_copy, 572-607. -/
def copyOf (src m : X) : X := ((copyFrom src m).state).getD mk0
def small : X := run (mkSize 2 2) [.set 0 0 (.num 12), .set 1 1 (.bool true), .set 0 1 (.str 1), .set 1 0 (.str 2)]
def big : X := copyOf small (mkSize 5 5)
def wide : X := copyOf big (run small [.resize 8 8])

/-- `check_copy` 40-66: the elements in the common part agree. -/
def checkCopy (a b : X) : Bool :=
  (List.range (min a.rows b.rows)).all fun i => (List.range (min a.cols b.cols)).all fun j =>
    (Mtv.contents a.store)[a.rows * j + i]? == (Mtv.contents b.store)[b.rows * j + i]?
example : checkCopy big small = true ∧ (big.rows, big.cols) = (5, 5) := by decide +kernel
example : checkCopy big wide = true ∧ (wide.rows, wide.cols) = (8, 8) := by decide +kernel
def wide2 : X := run wide [.set 0 0 (.str 4), .set 4 4 (.bool true), .set 7 7 (.bool false)]
example : checkCopy (copyOf wide2 (run big [.set 0 0 (.str 3)])) wide2 = true := by decide +kernel

/-- mtm_test_copy_empty_destination, 609-618. -/
example : copyFrom (mkSize 1 1 : X) mk0 = .ok () mk0 ∧ copyFrom (mk0 : X) (mkSize 1 1) = .ok () (mkSize 1 1) := by decide +kernel

/-- mtm_test_copy_from_array, 620-700. -/
def arrTest : X := run (mkSize 4 4) [.copyArr 3 3 (.nums [0, 1, 2, 3, 4, 5, 6, 7, 8])]
example : show_ arrTest = (4, 4, [num 0, num 1, num 2, none, num 3, num 4, num 5, none, num 6, num 7, num 8, none,
    none, none, none, none]) := by decide +kernel
def arrTest2 : X := run arrTest [.copyArr 2 2 (.strs [1, 2, 3, 4])]
example : show_ arrTest2 = (4, 4, [str 1, str 2, num 2, none, str 3, str 4, num 5, none, num 6, num 7, num 8, none,
    none, none, none, none]) := by decide +kernel
example : show_ (run arrTest2 [.copyArr 4 1 (.bools [true, false, true, false])]) = (4, 4, [bool true, bool false, bool true, bool false,
    str 3, str 4, num 5, none, num 6, num 7, num 8, none, none, none, none, none]) := by decide +kernel

/-- mtm_test_numeric, 722-750. -/
def numTest : List C := [.set 0 0 (.bool true), .set 1 0 (.str 1), .set 1 0 (.num 13), .setEmpty 1 1, .clear]
example : (List.range 6).map (fun n => numeric (run (ofOutcome (mkFill 2 2 (.num 11))) (numTest.take n)))
    = [true, true, false, true, false, false].map .ok := by decide +kernel

/-- mtm_test_position, 764-850. -/
def posTest : X := run (mkSize 3 2) [.set 0 0 (.num 10), .set 0 1 (.str 1), .set 1 0 (.num 20), .set 1 1 (.num 21),
  .set 2 0 (.bool true), .set 2 1 (.bool false)]
def at_ (m : X) (r c : Nat) : Nat × Nat := match position m none r c with | .ok p _ => p | _ => (99, 99)
example : getTypeAt posTest (at_ posTest 1 1) = .ok (some tNum) posTest ∧
    onStore posTest (getNumericAt cv (at_ posTest 1 1)) = .ok 21 posTest ∧
    onStore posTest (getStringAt (at_ posTest 0 1)) = .ok 1 posTest := by decide +kernel
def posTest2 : X := run posTest [.setEmptyAt (at_ posTest 0 1)]
def posTest3 : X := run posTest2 [.setAt (at_ posTest2 1 1) (.bool false)]
def posTest4 : X := run posTest3 [.setAt (at_ posTest3 2 0) (.num 123)]
def posTest5 : X := run posTest4 [.setAt (at_ posTest4 2 1) (.str 5)]
example : show_ posTest5 = (3, 2, [num 10, num 20, num 123, none, bool false, str 5]) := by decide +kernel
/-- The traversal by `next_position`. -/
def travel (m : X) : Nat → Nat × Nat → List (MRes Nat Nat Nat (Nat × Nat))
  | 0, _ => []
  | n + 1, p => matrixPosition m p :: match Mtv.nextPosition p m.store with
    | .ok (q, _) => travel m n q
    | _ => []
example : travel posTest5 6 (0, 0) = [(0, 0), (1, 0), (2, 0), (0, 1), (1, 1), (2, 1)].map fun p => .ok p posTest5 := by decide +kernel

/-- mtm_test_set_data_via_position, 852-885. -/
def viaTest : X := run (mkSize 5 4) [.setRangeAt (at_ (mkSize 5 4) 0 1) (.nums [11, 12, 13, 14, 15])]
example : show_ viaTest = (5, 4, List.replicate 5 none ++ [num 11, num 12, num 13, num 14, num 15] ++ List.replicate 10 none) := by
  decide +kernel

/-! test_walk.cpp -/

def sect (n : Node Nat Nat Nat) : Option Mtv.Ty × Nat × Nat := (n.ty, n.offset, n.size)
def nodes {β : Type} (r : MRes Nat Nat Nat β) (d : β) : β := match r with | .ok b _ => b | _ => d

/-- mtm_test_walk, 112-135. -/
def walkTest : X := run (mkSize 12 1) [.set 2 0 (.num 11), .set 3 0 (.num 12), .set 4 0 (.num 13), .set 5 0 (.num 14),
  .set 7 0 (.str 1), .set 8 0 (.str 2), .set 9 0 (.str 3), .set 10 0 (.bool false), .set 11 0 (.bool true)]
example : (walk walkTest).length = 5 := by decide +kernel

/-- mtm_test_walk_subset, 137-170. -/
def sub1 : X := run (mkSize 4 4) [.set 1 1 (.num 11), .set 2 1 (.num 12), .set 3 1 (.num 13), .set 0 2 (.str 1),
  .set 1 2 (.str 2), .set 2 2 (.bool false)]
def sub2 : X := run (mkSize 4 4) [.set 0 1 (.num 10), .set 1 1 (.num 11), .set 0 2 (.str 1), .set 1 2 (.str 2),
  .set 2 2 (.str 3), .set 3 2 (.str 4)]
example : (nodes (walkRange sub1 1 1 2 2) []).length = 3 ∧ (nodes (walkRange sub2 1 1 2 2) []).length = 3 := by decide +kernel

/-- mtm_test_parallel_walk, 300-365. -/
def lhs : X := run (mkSize 10 1) [.set 0 0 (.num 1220), .set 4 0 (.str 12), .set 5 0 (.str 25)]
def rhs : X := run (ofOutcome (mkFill 10 1 (.str 0))) [.set 2 0 (.num 12), .set 8 0 (.bool false), .set 9 0 (.bool true)]
def pairs (l : List (Node Nat Nat Nat × Node Nat Nat Nat)) : List (Elem Nat Nat Nat × Elem Nat Nat Nat) :=
  l.flatMap fun p => p.1.elems.zip p.2.elems
example : pairs (nodes (walkWith lhs rhs) []) = [(num 1220, str 0), (none, str 0), (none, num 12), (none, str 0), (str 12, str 0),
    (str 25, str 0), (none, str 0), (none, str 0), (none, bool false), (none, bool true)] := by decide +kernel
example : pairs (nodes (walkRangeWith lhs rhs 2 0 8 0) []) = [(none, num 12), (none, str 0), (str 12, str 0),
    (str 25, str 0), (none, str 0), (none, str 0), (none, bool false)] := by decide +kernel
example : pairs (nodes (walkRangeWith lhs rhs 4 0 4 0) []) = [(str 12, str 0)] := by decide +kernel

/-- mtm_test_parallel_walk_non_equal_size, 367-430. -/
def l3 : X := run (mkSize 3 3) [.set 0 0 (.num 10), .set 1 0 (.num 20), .set 2 0 (.num 30), .set 0 1 (.num 40),
  .set 1 1 (.num 50), .set 2 1 (.num 60), .set 0 2 (.num 70), .set 1 2 (.num 80), .set 2 2 (.num 90)]
def r2 : X := run (mkSize 2 2) [.set 0 0 (.str 1), .set 1 0 (.str 2), .set 0 1 (.str 3), .set 1 1 (.str 4)]
example : pairs (nodes (walkRangeWith l3 r2 0 0 1 1) []) = [(num 10, str 1), (num 20, str 2), (num 40, str 3), (num 50, str 4)] := by
  decide +kernel
def l3' : X := run l3 [.set 1 0 (.bool true), .set 0 1 (.bool false)]
def r2' : X := run r2 [.set 0 0 (.num 99), .set 1 1 (.num 990)]
example : pairs (nodes (walkRangeWith l3' r2' 0 0 1 1) [])
    = [(num 10, num 99), (bool true, str 2), (bool false, str 3), (num 50, num 990)] := by decide +kernel

/-- mtm_test_walk_with_lambda, 435-485. -/
def lam : X := ofOutcome (mkArr 2 2 (.nums [11, 12, 13, 14]))
example : (walk lam).map sect = [(some tNum, 0, 4)] := by decide +kernel
example : (nodes (walkRange lam 0 0 0 1) []).map sect = [(some tNum, 0, 1), (some tNum, 2, 1)] := by decide +kernel

/-- mtm_test_parallel_walk_with_lambda, 487-600. -/
def lam2 : X := run (mkSize 2 2) [.set 0 0 (.num 22), .set 1 0 (.num 25), .set 0 1 (.bool true), .set 1 1 (.bool false)]
def sects (l : List (Node Nat Nat Nat × Node Nat Nat Nat)) := l.map fun p => (sect p.1, sect p.2)
example : sects (nodes (walkWith lam lam2) []) = [((some tNum, 0, 2), (some tNum, 0, 2)), ((some tNum, 2, 2), (some tBool, 0, 2))] := by
  decide +kernel
def lam3 : X := run (ofOutcome (mkFill 4 4 (.num 10))) [.set 2 0 (.bool true), .set 3 0 (.bool true), .set 1 2 (.bool true), .set 2 2 (.bool false)]
def lam4 : X := run (ofOutcome (mkFill 4 4 (.str 1))) [.set 0 1 (.num 22), .set 1 1 (.num 23), .set 0 2 (.num 11), .set 1 2 (.num 11)]
example : sects (nodes (walkRangeWith lam3 lam4 0 0 2 2) []) =
    [((some tNum, 0, 2), (some tStr, 0, 2)), ((some tBool, 0, 1), (some tStr, 2, 1)),
     ((some tNum, 0, 2), (some tNum, 0, 2)), ((some tNum, 2, 1), (some tStr, 0, 1)),
     ((some tNum, 4, 1), (some tNum, 0, 1)), ((some tBool, 0, 1), (some tNum, 1, 1)), ((some tBool, 1, 1), (some tStr, 0, 1))] := by
  decide +kernel

end Mdds.Mtm.Tests
