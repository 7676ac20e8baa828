import Verif.Packed.State

/-!
# packed_trie_map: replays of repository unit tests (tests of the model, not proofs)
-/
namespace Mdds.Packed
open Mdds.Trie

/-- `test/trie_map/test_main.cpp` `trie_packed_test1` (lines 53-111). -/
def tests1 : List (Key × Nat) := [([97], 13), ([97, 97], 10), ([97, 98], 3), ([98], 7)]

example : (ofEntries 65536 10 tests1).bind (fun p => (pFind 65536 p [97, 98]).map (pDeref p.vals)) = .ok (some ([97, 98], 3)) := by decide
example : (ofEntries 65536 10 tests1).bind (fun p => (pFind 65536 p [97, 99]).map (pDeref p.vals)) = .ok none := by decide
example : (ofEntries 65536 10 tests1).bind (pIterateAll 65536 20) = .ok tests1 := by decide
example : (ofEntries 65536 10 tests1).bind (fun p => pIterateSearch 65536 20 p [97]) = .ok (tests1.take 3) := by decide
example : (ofEntries 65536 10 tests1).map pSize = .ok 4 := by decide

/-- Packing a `trie_map` gives the same as the entries. -/
example : pack 65536 (run empty [.insert [97] 13, .insert [98] 7, .insert [97, 98] 3, .insert [97, 97] 10]) = ofEntries 65536 10 tests1 := by
  decide

/-- Save and load with strings and with sequences (own data, in the manner of `test_state.cpp`). -/
def testsS : List (Key × List Nat) := [([97, 98], [120]), ([97, 99], []), ([98], [1, 2, 3])]

example : (ofEntries 65536 10 testsS).bind (fun p => (save strSer 2 p).bind fun b => .ok (load strSer 2 defaultPacked b == (p, .ok []))) = .ok true := by
  decide

example : (ofEntries 65536 10 testsS).bind (fun p => (save (seqSer 2) 2 p).bind fun b => .ok (load (seqSer 2) 2 defaultPacked b == (p, .ok []))) = .ok true := by
  decide

end Mdds.Packed
