import Verif.Common
/-!
Model of `mdds::mtv::delayed_delete_vector`
(`include/mdds/multi_type_vector/delayed_delete_vector.hpp` 20-216).

The underlying `std::vector` is a list; iterators of the class are iterators of
that vector, so an iterator is an index into it (`begin()` is `m_front_offset`).
Using an iterator outside the range the standard allows is undefined behaviour.
Simplification: capacity is not modelled, so `reserve`, `shrink_to_fit` are only
their effect on the content.
-/
namespace Mdds.Ddv
open Mdds

/-- delayed_delete_vector.hpp 24-25: `m_vec`, `m_front_offset`. -/
structure DDV (α : Type) where
  vec : List α
  off : Nat
  deriving DecidableEq, Repr

variable {α : Type}

/-- 39-40. -/
def empty : DDV α := ⟨[], 0⟩
/-- 42-43. -/
def ofFill (n : Nat) (v : α) : DDV α := ⟨List.replicate n v, 0⟩
/-- 48-50. -/
def ofRange (l : List α) : DDV α := ⟨l, 0⟩

/-- `begin()` 52-55, as an index of the underlying vector. -/
def begin_ (d : DDV α) : Nat := d.off
/-- `end()` 57-60. -/
def end_ (d : DDV α) : Nat := d.vec.length

/-- `size()` 188-191: unsigned subtraction; when it would wrap the size is
nonsense, reported as undefined behaviour. -/
def size (d : DDV α) : Outcome Nat :=
  if d.off ≤ d.vec.length then .ok (d.vec.length - d.off) else .ub

/-- The elements `*begin() .. *end()` in order: undefined when `begin()` is past
`end()`. -/
def toList (d : DDV α) : Outcome (List α) :=
  if d.off ≤ d.vec.length then .ok (d.vec.drop d.off) else .ub

/-- The elements from `rbegin()` to `rend()` 72-90: `m_vec.rbegin()` runs over
the reversed vector, `rend() - m_front_offset` stops before its last
`m_front_offset` elements. -/
def toListRev (d : DDV α) : Outcome (List α) :=
  if d.off ≤ d.vec.length then .ok (d.vec.reverse.take (d.vec.length - d.off)) else .ub

/-- `operator[]` 92-100. -/
def idx (d : DDV α) (pos : Nat) : Outcome α := Outcome.ofOption d.vec[pos + d.off]?

/-- Assignment through the reference `operator[]` returns. -/
def setIdx (d : DDV α) (pos : Nat) (v : α) : Outcome (DDV α) :=
  if pos + d.off < d.vec.length then .ok { d with vec := d.vec.set (pos + d.off) v } else .ub

/-- `at` 102-110: `std::vector::at` throws `std::out_of_range`. -/
def at_ (d : DDV α) (pos : Nat) : Outcome α :=
  match d.vec[pos + d.off]? with
  | some x => .ok x
  | none => .err .outOfRange

/-- `push_back` 112-120, `emplace_back` 127-131. -/
def pushBack (d : DDV α) (v : α) : DDV α := { d with vec := d.vec ++ [v] }

/-- `std::vector::insert(pos, first, last)`; the iterator must lie in
`[begin, end]` of the vector. -/
def vecInsert (l : List α) (i : Nat) (vs : List α) : Outcome (List α) :=
  if i ≤ l.length then .ok (l.take i ++ vs ++ l.drop i) else .ub

/-- `std::vector::erase(first, last)`. -/
def vecErase (l : List α) (i j : Nat) : Outcome (List α) :=
  if i ≤ j ∧ j ≤ l.length then .ok (l.take i ++ l.drop j) else .ub

/-- `insert` 133-147; the result iterator of the one-value form is the position
of the new element. -/
def insert (d : DDV α) (it : Nat) (vs : List α) : Outcome (DDV α) := do
  let v ← vecInsert d.vec it vs
  .ok { d with vec := v }

/-- `clear_removed` 211-215. -/
def clearRemoved (d : DDV α) : Outcome (DDV α) := do
  let v ← vecErase d.vec 0 d.off
  .ok ⟨v, 0⟩

/-- `resize(count)` 149-153; new elements are value-initialised (`dflt`). -/
def resize (dflt : α) (d : DDV α) (count : Nat) : Outcome (DDV α) := do
  let d ← clearRemoved d
  .ok { d with vec := d.vec.take count ++ List.replicate (count - d.vec.length) dflt }

/-- `erase(pos)` 155-164; returns the new vector and the result iterator. -/
def erase1 (d : DDV α) (it : Nat) : Outcome (DDV α × Nat) :=
  if it = d.off then
    let d' := { d with off := d.off + 1 }
    .ok (d', d'.off)
  else do
    -- `m_vec.erase(pos)`: the iterator must be dereferenceable
    if it < d.vec.length then
      let v ← vecErase d.vec it (it + 1)
      .ok ({ d with vec := v }, it)
    else .ub

/-- `erase(first, last)` 166-169. -/
def erase2 (d : DDV α) (i j : Nat) : Outcome (DDV α × Nat) := do
  let v ← vecErase d.vec i j
  .ok ({ d with vec := v }, i)

/-- `shrink_to_fit` 176-180, `reserve` 182-186 (content only). -/
def shrinkToFit (d : DDV α) : Outcome (DDV α) := clearRemoved d
def reserve (d : DDV α) (_n : Nat) : Outcome (DDV α) := clearRemoved d

/-- `assign(first, last)` 193-198. -/
def assign (d : DDV α) (vs : List α) : Outcome (DDV α) := do
  let d ← clearRemoved d
  .ok { d with vec := vs }

/-- `swap` 122-125: only the underlying vectors are swapped. -/
def swap (a b : DDV α) : DDV α × DDV α := ({ a with vec := b.vec }, { b with vec := a.vec })

/-- Implicit move constructor: member-wise, so the moved-from vector is empty and
the moved-from offset keeps its value. Returns (new, moved-from). -/
def move (a : DDV α) : DDV α × DDV α := (a, { a with vec := [] })

/-- `operator==` 218-222: `std::equal(begin, end, begin, end)`. -/
def eq [DecidableEq α] (a b : DDV α) : Outcome Bool := do
  let x ← toList a
  let y ← toList b
  .ok (decide (x = y))

end Mdds.Ddv
