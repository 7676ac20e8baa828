import Verif.Common

/-!
# sorted_string_map: model

Source: `/repo/include/mdds/sorted_string_map.hpp` and `sorted_string_map_def.inl` (`ss.inl`).

Keys are lists of unsigned bytes (`List Nat`) under the lexicographic order of `std::string_view`
(`char_traits<char>::compare` compares bytes as unsigned).  The table is a list of entries; the
container holds no other state.  `std::lower_bound` and `std::unordered_map` belong to the standard
library; they are modelled by the halving loop and by an association list.
-/
namespace Mdds.SSMap

variable {V : Type}

abbrev Key := List Nat

/-- `detail::map_entry` (`sorted_string_map.hpp` 16-24). -/
structure Entry (V : Type) where
  key : Key
  value : V
  deriving DecidableEq, Repr

/-- The halving loop of `std::lower_bound` on the index range `[first, first + len)`; `lt i` is
`entries[i] < input`. `fuel ≥ len` is always enough (`lowerBound_spec`). -/
def lowerBound (lt : Nat → Bool) : Nat → Nat → Nat → Nat
  | 0, first, _ => first
  | fuel + 1, first, len =>
    if len = 0 then first
    else
      let half := len / 2
      if lt (first + half) then lowerBound lt fuel (first + half + 1) (len - half - 1)
      else lowerBound lt fuel first half

/-- `detail::compare` (`ss.inl` 16-27) on an entry of the table and the searched key; an index outside
the table does not occur. -/
def entryLt (es : List (Entry V)) (k : Key) (i : Nat) : Bool :=
  match es[i]? with
  | some e => decide (e.key < k)
  | none => false

/-- `find` (`ss.inl` 92-106). -/
def find (es : List (Entry V)) (null : V) (k : Key) : V :=
  if es.length = 0 then null
  else
    match es[lowerBound (entryLt es k) es.length 0 es.length]? with
    | none => null
    | some e => if e.key ≠ k then null else e.value

variable [DecidableEq V]

/-- `linear_key_finder::operator()` (`ss.inl` 36-44): the first entry with that value. -/
def findKeyLinear (es : List (Entry V)) (v : V) : Key :=
  match es.find? (fun e => decide (e.value = v)) with
  | none => []
  | some e => e.key

/-- `insert_or_assign` on the value-to-position map. -/
def insertOrAssign (m : List (V × Nat)) (v : V) (pos : Nat) : List (V × Nat) :=
  match m with
  | [] => [(v, pos)]
  | (w, p) :: t => if w = v then (w, pos) :: t else (w, p) :: insertOrAssign t v pos

/-- Constructor of `hash_key_finder` (`ss.inl` 46-54), from position `pos` on. -/
def hashBuild : List (Entry V) → Nat → List (V × Nat) → List (V × Nat)
  | [], _, m => m
  | e :: es, pos, m => hashBuild es (pos + 1) (insertOrAssign m e.value pos)

/-- `hash_key_finder::operator()` (`ss.inl` 56-65); `none`: position outside the table. -/
def findKeyHash (es : List (Entry V)) (v : V) : Option Key :=
  match (hashBuild es 0 []).lookup v with
  | none => some []
  | some pos => es[pos]?.map (·.key)

end Mdds.SSMap
