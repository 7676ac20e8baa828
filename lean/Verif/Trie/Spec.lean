import Verif.Trie.Model

/-!
# trie_map: specification

A trie map is a finite map from keys (lists of units) to values.
-/
namespace Mdds.Trie
variable {V : Type}

/-- Abstract map. -/
abbrev Map (V : Type) := Key → Option V

/-- Effect of a call on the abstract map. -/
def specStep (m : Map V) : Op V → Map V
  | .insert k v => fun k' => if k' = k then some v else m k'
  | .erase k => fun k' => if k' = k then none else m k'
  | .clear => fun _ => none

def specRun (ops : List (Op V)) : Map V := ops.foldl specStep (fun _ => none)

/-- The map stored in a trie: follow the units of the key, one child per unit. -/
def denote : Node V → Map V
  | n, [] => n.val
  | n, c :: k => match n.kids.find? c with
    | none => none
    | some ch => denote ch k

/-- Entries of a trie in depth-first order, keys prefixed by `pre`. -/
def entK (pre : Key) : Kids V → List (Key × V)
  | .nil => []
  | .cons c v k r =>
    (match v with | none => [] | some x => [(pre ++ [c], x)]) ++ entK (pre ++ [c]) k ++ entK pre r

def optEntry (pre : Key) (v : Option V) : List (Key × V) :=
  match v with | none => [] | some x => [(pre, x)]

def entN (pre : Key) (n : Node V) : List (Key × V) := optEntry pre n.val ++ entK pre n.kids

/-- All entries. -/
def entries (n : Node V) : List (Key × V) := entN [] n

/-- Some key lies at or below `q`. -/
def HasPrefix (m : Map V) (q : Key) : Prop := ∃ r, m (q ++ r) ≠ none

end Mdds.Trie
