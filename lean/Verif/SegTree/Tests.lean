import Verif.SegTree.Props

/-!
# segment_tree: tests (not proofs)

Replays of `/repo/test/segment_tree/test_main.cpp`, `st_test_insert_search_removal`.
-/
namespace Mdds.SegTree.Tests
open Mdds Mdds.SegTree

/-- Leaf keys with their chains, as printed by `check_integrity`. -/
def leafChains : Tree → List (Int × List Nat)
  | .bot1 _ _ _ a => [(a.key, a.chain)]
  | .bot2 _ _ _ a b => [(a.key, a.chain), (b.key, b.chain)]
  | .one _ _ _ a => leafChains a
  | .two _ _ _ a b => leafChains a ++ leafChains b

/-- A = 1 ... G = 7; the value is the index in the store plus one. -/
def ops : List (Op Nat) :=
  [.insert 0 10 1, .insert 0 5 2, .insert 5 12 3, .insert 10 24 4, .insert 4 24 5, .insert 0 26 6, .insert 12 26 7]

def chains (n : Nat) : Outcome (Option (List (Int × List Nat))) :=
  (run 0 mk (ops.take n ++ [.build])).map fun st => st.root.map leafChains

example : chains 0 = .ok none := by decide +kernel
example : chains 1 = .ok (some [(0, [0]), (10, [])]) := by decide +kernel
example : chains 2 = .ok (some [(0, [0, 1]), (5, [0]), (10, [])]) := by decide +kernel
example : chains 3 = .ok (some [(0, [0, 1]), (5, [0, 2]), (10, [2]), (12, [])]) := by decide +kernel
example : chains 4 = .ok (some [(0, [0, 1]), (5, [0, 2]), (10, [2, 3]), (12, [3]), (24, [])]) := by decide +kernel
example : chains 5 = .ok (some [(0, [1]), (4, [1, 4]), (5, [0, 2]), (10, [2, 3]), (12, [3, 4]), (24, [])]) := by
  decide +kernel
example : chains 6 = .ok (some [(0, [1]), (4, [1, 4]), (5, [0, 2]), (10, [2, 3]), (12, [3, 4, 5]), (24, [5]), (26, [])]) := by
  decide +kernel
example : chains 7 =
    .ok (some [(0, [1]), (4, [1, 4]), (5, [0, 2]), (10, [2, 3]), (12, [3, 4, 5, 6]), (24, [5, 6]), (26, [])]) := by
  decide +kernel

def sortNat (l : List Nat) : List Nat := l.foldr (fun k l => l.takeWhile (· < k) ++ k :: l.dropWhile (· < k)) []

/-- Sorted values found at the keys of the test. -/
def results (l : List (Op Nat)) : Outcome (List (List Nat)) :=
  (run 0 mk l).map fun st =>
    [-1, 0, 4, 5, 10, 12, 24, 30, 9999].map fun p => sortNat (((found st p).getD []).map (·.value))

example : results (ops ++ [.build]) =
    .ok [[], [1, 2, 6], [1, 2, 5, 6], [1, 3, 5, 6], [3, 4, 5, 6], [4, 5, 6, 7], [6, 7], [], []] := by decide +kernel

/-- removal of E, F and G, before and after a rebuild -/
example : results (ops ++ [.build, .eraseAt 4, .eraseAt 5, .eraseAt 6]) =
    .ok [[], [1, 2], [1, 2], [1, 3], [3, 4], [4], [], [], []] := by decide +kernel
example : results (ops ++ [.build, .eraseAt 4, .eraseAt 5, .eraseAt 6, .build]) =
    .ok [[], [1, 2], [1, 2], [1, 3], [3, 4], [4], [], [], []] := by decide +kernel

end Mdds.SegTree.Tests
