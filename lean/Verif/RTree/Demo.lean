import Verif.RTree.Spec
/-! Concrete configurations and runs of the rtree model, for witnesses and examples. -/
namespace Mdds.RTree

/-- Insertion sort: a stand-in for `std::sort` in concrete runs. -/
def isort {α : Type} (lt : α → α → Bool) : List α → List α
  | [] => []
  | a :: l => ins a (isort lt l)
where
  ins (a : α) : List α → List α
    | [] => [a]
    | b :: l => if lt b a then b :: ins a l else a :: b :: l

theorem isort_ins_perm {α : Type} (lt : α → α → Bool) (a : α) (l : List α) :
    (isort.ins lt a l).Perm (a :: l) := by
  induction l with
  | nil => simp [isort.ins]
  | cons b l ih =>
    simp only [isort.ins]; split
    · exact (List.Perm.cons b ih).trans (List.Perm.swap a b l)
    · exact List.Perm.refl _

theorem isort_perm {α : Type} (lt : α → α → Bool) (l : List α) : (isort lt l).Perm l := by
  induction l with
  | nil => simp [isort]
  | cons b l ih => exact (isort_ins_perm lt b _).trans (List.Perm.cons b ih)

/-- Two-dimensional trees of numbers with the given node capacities and reinsertion settings; the
depth limit is the default of `default_rtree_traits` (rtree.hpp 61). -/
def demoCfg (minSize maxSize reinsertion : Nat) (forced : Bool) : Cfg 2 Nat :=
  ⟨minSize, maxSize, 100, forced, reinsertion, isort, isort, .exact, fun _ _ => isort_perm _ _, fun _ _ => isort_perm _ _⟩

/-- Unsigned arithmetic modulo `m`: subtraction and products wrap around. -/
def Arith.modulo (m : Int) : Arith := ⟨fun a b => (a + b) % m, fun a b => (a - b) % m, fun a b => (a * b) % m, (· / 2)⟩

/-- The same trees with one-byte keys, whose areas and distances wrap around. -/
def byteCfg (minSize maxSize reinsertion : Nat) (forced : Bool) : Cfg 2 Nat :=
  { demoCfg minSize maxSize reinsertion forced with ar := .modulo 256 }

/-- The extent from `(a, b)` to `(c, d)`. -/
def bx (a b c d : Int) : Box 2 := ⟨⟨[a, b], rfl⟩, ⟨[c, d], rfl⟩⟩

/-- A point as an extent. -/
def px (a b : Int) : Box 2 := bx a b a b

/-- Calls of the public interface.  A position to be erased is the `k`-th result of an overlap
search. -/
inductive Op (D : Nat) (V : Type) where
  | insert (b : Box D) (v : V)
  | erase (q : Box D) (k : Nat)
  | copy
  | move

variable {D : Nat} {V : Type}

/-- The effect of one call. -/
def Op.run (cfg : Cfg D V) (t : Node D V) : Op D V → Except Fault (Node D V)
  | .insert b v => Mdds.RTree.insert cfg t b v
  | .erase q k =>
    match (searchBox t q .overlap)[k]? with
    | some x => eraseAt cfg t x.path
    | none => .ok t
  | .copy => .ok (Mdds.RTree.copy t)
  | .move => .ok (relocate t)

/-- The effect of a sequence of calls. -/
def runOps (cfg : Cfg D V) : Node D V → List (Op D V) → Except Fault (Node D V)
  | t, [] => .ok t
  | t, o :: os =>
    match o.run cfg t with
    | .ok t' => runOps cfg t' os
    | .error e => .error e

/-- Whether a computation returned and the result meets a condition. -/
def okAnd {α : Type} (r : Except Fault α) (p : α → Bool) : Bool :=
  match r with
  | .ok a => p a
  | .error _ => false

theorem okAnd_iff {α : Type} {r : Except Fault α} {p : α → Bool} : okAnd r p = true ↔ ∃ a, r = .ok a ∧ p a = true := by
  cases r <;> simp [okAnd]

/-- Scattered points with consecutive values. -/
def scatter (n : Nat) : List (Op 2 Nat) :=
  (List.range n).map fun i => .insert (px ((i * 37 % 101 : Nat) : Int) ((i * 53 % 97 : Nat) : Int)) i

/-- The whole area of `scatter`. -/
def area : Box 2 := bx 0 0 200 200

/-- Erase `k` entries found by searching `area`, stepping through the results by `m`, from a tree of
`n` entries. -/
def thin (n m k : Nat) : List (Op 2 Nat) := (List.range k).map fun i => .erase area (i * m % (n - i))

end Mdds.RTree
