import Verif.Trie.Model

/-! Unit tests of the repository (`/repo/test/trie_map/test_main.cpp`) replayed on the model. These are tests, not proofs. -/
namespace Mdds.Trie.Tests

def ins (l : List (String × Nat)) : Node Nat := run empty (l.map fun e => .insert (e.1.toList.map Char.toNat) e.2)
def key (s : String) : Key := s.toList.map Char.toNat
def kv (s : String) (n : Nat) : Option (Key × Nat) := some (key s, n)

/-- Dereferences while going back `n` times. -/
def back : Nat → Iter Nat → List (Option (Key × Nat))
  | 0, _ => []
  | n + 1, it => match dec 50 it with
    | .ok it' => deref it' :: back n it'
    | _ => []

/-- lines 859-941, `trie_test_iterator` -/
def t1 : Node Nat := ins [("a", 1), ("ab", 2), ("aba", 3), ("abb", 4), ("abc", 5), ("bc", 6), ("bcd", 7)]
example : iterateAll 50 t1 = .ok [(key "a", 1), (key "ab", 2), (key "aba", 3), (key "abb", 4), (key "abc", 5), (key "bc", 6),
    (key "bcd", 7)] := rfl
example : back 7 (endIter t1 []) = [kv "bcd" 7, kv "bc" 6, kv "abc" 5, kv "abb" 4, kv "aba" 3, kv "ab" 2, kv "a" 1] := rfl

/-- lines 944-1016, `trie_test_iterator_with_erase` -/
example : iterateAll 50 (ins [("Python", 1), ("C++", 2)]) = .ok [(key "C++", 2), (key "Python", 1)] := rfl
example : iterateAll 50 (erase (key "C++") (ins [("Python", 1), ("C++", 2)])).1 = .ok [(key "Python", 1)] := rfl
example : iterateAll 50 (erase (key "AB") (ins [("A", 1), ("AB", 2), ("ABC", 3)])).1 = .ok [(key "A", 1), (key "ABC", 3)] := rfl
example : back 2 (endIter (erase (key "AB") (ins [("A", 1), ("AB", 2), ("ABC", 3)])).1 []) = [kv "ABC" 3, kv "A" 1] := rfl
example : iterateAll 50 (erase (key "ABC") (ins [("A", 1), ("AB", 2), ("ABC", 3)])).1 = .ok [(key "A", 1), (key "AB", 2)] := rfl

/-- lines 1019-1075, `trie_test_find_iterator` -/
def t2 : Node Nat := ins [("a", 1), ("aa", 2), ("ab", 3), ("b", 4)]
example : collect 50 50 (find t2 (key "aa")) (endIter t2 []) = .ok [(key "aa", 2), (key "ab", 3), (key "b", 4)] := rfl
example : collect 50 50 (find t2 (key "b")) (endIter t2 []) = .ok [(key "b", 4)] := rfl

/-- lines 473-500, `trie_packed_test_prefix_search1` -/
example : iterateSearch 50 (ins [("andy", 1), ("andy1", 2), ("andy12", 3)]) (key "andy") =
    .ok [(key "andy", 1), (key "andy1", 2), (key "andy12", 3)] := rfl

/-- lines 664-800, `trie_test1`: erase of a missing key -/
example : (erase (key "Foo") (ins [("Barak", 1), ("Bob", 2), ("Hideki", 3)])).2 = false := rfl
example : size (erase (key "Hideki") (ins [("Barak", 1), ("Bob", 2), ("Hideki", 3)])).1 = 2 := rfl

/-- lines 1335-1375, `trie_test_compare` -/
example : beq (ins [("a", 1), ("ab", 2)]) (ins [("ab", 2), ("a", 1)]) = true ∧
    beq (ins [("a", 1), ("ab", 2), ("ac", 3)]) (ins [("a", 1), ("ab", 2), ("ac", 4)]) = false := by decide

end Mdds.Trie.Tests
