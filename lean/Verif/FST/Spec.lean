import Verif.FST.Model
import Mathlib.Data.List.Chain

/-!
# flat_segment_tree: specification

The abstract value of a container is a function from keys to values on `[lo, hi)`.
-/
namespace Mdds.FST

variable {V : Type}

/-- Value of the stored segment `[a.key, b.key)` that contains `k`. -/
def valueAt : List (Leaf V) → Int → Option V
  | a :: b :: t, k => if a.1 ≤ k ∧ k < b.1 then some a.2 else valueAt (b :: t) k
  | _, _ => none

/-- Pointwise update on `[s, e)` clipped to `[lo, hi)`. -/
def specInsert (f : Int → Option V) (lo hi s e : Int) (v : V) (k : Int) : Option V :=
  if lo ≤ k ∧ k < hi ∧ s ≤ k ∧ k < e then some v else f k

/-- Delete `[s, e)` from the key axis; the freed tail gets the default value. -/
def specShiftLeft (f : Int → Option V) (hi : Int) (init : V) (s e k : Int) : Option V :=
  if k < s then f k
  else if k < hi - (e - s) then f (k + (e - s))
  else if k < hi then some init else none

/-- Insert `n` keys with value `fill` at `p`; what is pushed past `hi` is lost. -/
def specShiftRight (f : Int → Option V) (hi : Int) (fill : Option V) (p n k : Int) : Option V :=
  if k < p then f k
  else if hi ≤ k then none
  else if k < p + n then fill
  else f (k - n)

/-- Well-formed leaf list of a container over `[lo, hi)`: strictly increasing keys from
`lo` to `hi`; the right leaf carries the fixed dummy value `dv`. -/
structure WF (lo hi : Int) (dv : V) (ls : List (Leaf V)) : Prop where
  lt : lo < hi
  sorted : ls.Pairwise (fun a b => a.1 < b.1)
  first : ls.head?.map (·.1) = some lo
  last : ls.getLast? = some (hi, dv)

/-- Maximal segments: no two neighbouring segments have the same value (the right leaf is
not a segment). -/
def Canon (ls : List (Leaf V)) : Prop := ls.dropLast.IsChain (fun a b => a.2 ≠ b.2)

instance [DecidableEq V] (ls : List (Leaf V)) : Decidable (Canon ls) := by
  unfold Canon; infer_instance

/-- States a user can get to: construct over `[lo, hi)`, then any sequence of calls that does
not end in undefined behaviour. -/
def Reachable [DecidableEq V] (dv : V) (lo hi : Int) (init : V) (st : State V) : Prop :=
  lo < hi ∧ ∃ ops, run (mk dv lo hi init) ops = .ok st

end Mdds.FST
