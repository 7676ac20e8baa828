import Verif.FST.Model

/-!
# flat_segment_tree over a fixed-width integer key type: model

Source: `/repo/include/mdds/flat_segment_tree.hpp` (`fst.hpp`) and
`flat_segment_tree_def.inl` (`fst.inl`).

`Model.lean` computes keys with unbounded integers.  The code computes them in `key_type`.
Keys are compared everywhere, but they are added and subtracted only in `shift_left`,
`shift_right` and their two helpers; this file models exactly those functions again, with
every addition and subtraction done in the key type.

Simplification: `key_type` is a built-in integer type.  Floating point keys are not modelled.
-/
namespace Mdds.FST

variable {V : Type}

/-- A built-in integer key type: its range, what happens when a result stored in a key does not
fit (`wraps`: it is reduced modulo the number of values, as for unsigned types and for types
narrower than `int`; otherwise the operation is undefined), and whether operands are promoted to
a wider type, so that a difference that is only compared and never stored is exact. -/
structure KeyType where
  lo : Int
  hi : Int
  wraps : Bool
  promotes : Bool
  lo_le : lo ≤ 0
  hi_pos : 0 < hi
  /-- a type with wrap-around is unsigned or narrower than `int` -/
  kinds : wraps = true → promotes = true ∨ lo = 0

/-- The usual two's complement types. -/
def KeyType.uint8 : KeyType := ⟨0, 255, true, true, by decide, by decide, by decide⟩
def KeyType.int8 : KeyType := ⟨-128, 127, true, true, by decide, by decide, by decide⟩
def KeyType.uint32 : KeyType := ⟨0, 4294967295, true, false, by decide, by decide, by decide⟩
def KeyType.int32 : KeyType := ⟨-2147483648, 2147483647, false, false, by decide, by decide, by decide⟩

/-- `z` is a value of the type. -/
def KeyType.Has (K : KeyType) (z : Int) : Prop := K.lo ≤ z ∧ z ≤ K.hi

instance (K : KeyType) (z : Int) : Decidable (K.Has z) := by unfold KeyType.Has; infer_instance

/-- Reduction modulo the number of values. -/
def KeyType.wrap (K : KeyType) (z : Int) : Int := (z - K.lo) % (K.hi - K.lo + 1) + K.lo

/-- Storing the mathematical result `z` of an addition or subtraction in a key. -/
def KeyType.norm (K : KeyType) (z : Int) : Outcome Int :=
  if K.Has z then .ok z else if K.wraps = true then .ok (K.wrap z) else .ub

/-- The right operand of `size < right - left` (`fst.inl` 477): not stored in a key. -/
def KeyType.diff (K : KeyType) (a b : Int) : Outcome Int :=
  if K.promotes = true then .ok (a - b) else K.norm (a - b)

/-- The loop of `shift_leaf_key_left` (`fst.hpp` 738-747) over the nodes `ns`. -/
def subKeysK (K : KeyType) (d : Int) : List (Leaf V) → Outcome (List (Leaf V))
  | [] => .ok []
  | n :: t => (K.norm (n.1 - d)).bind fun k => (subKeysK K d t).map ((k, n.2) :: ·)

/-- `shift_leaf_key_left` (`fst.hpp` 738-747) from index `i` to the right leaf. -/
def shiftKeysLeftK (K : KeyType) (ls : List (Leaf V)) (i : Nat) (d : Int) : Outcome (List (Leaf V)) :=
  (subKeysK K d (ls.drop i).dropLast).map fun m =>
    ls.take i ++ m ++ (ls.drop i).drop ((ls.drop i).length - 1)

/-- The loop of `shift_leaf_key_right` (`fst.hpp` 749-778): the key is increased first and
compared with the right leaf's key afterwards. -/
def shiftKeysRightK (K : KeyType) (hi d : Int) : List (Leaf V) → Outcome (List (Leaf V))
  | [] => .ok []
  | n :: t => (K.norm (n.1 + d)).bind fun k =>
      if k < hi then (shiftKeysRightK K hi d t).map ((k, n.2) :: ·) else .ok []

/-- Shift the nodes from index `i` (the right leaf stays). -/
def shiftRightFromK (K : KeyType) (ls : List (Leaf V)) (i : Nat) (hi d : Int) : Outcome (List (Leaf V)) :=
  (shiftKeysRightK K hi d (ls.drop i).dropLast).map fun m =>
    ls.take i ++ m ++ (ls.drop i).drop ((ls.drop i).length - 1)

variable [DecidableEq V]

/-- `shift_left` (`fst.inl` 361-456): new leaf list and whether the tree stays valid. -/
def shiftLeftLeavesK (K : KeyType) (ls : List (Leaf V)) (init : V) (s e : Int) :
    Outcome (List (Leaf V) × Bool) :=
  if s ≥ e then .ok (ls, true)
  else match bounds ls with
  | .err x => .err x
  | .ub => .ub
  | .ok (lo, hi) =>
    if s < lo ∨ e < lo then .ok (ls, true)
    else if s > hi ∨ e > hi then .ok (ls, true)
    else
      let idx : Option Nat := if lo = s then some 0 else insPos ls s 1
      match idx with
      | none => .ok (ls, true)
      | some i =>
        (K.norm (e - s)).bind fun size =>
        if i = ls.length - 1 then
          (if hi ≤ e then .ok s else K.norm (hi - size)).bind fun k =>
          (appendNewSegment ls init k).map fun r => (r.1, !r.2)
        else match ls[i]? with
          | none => .ub
          | some nd =>
            if e < nd.1 then
              (shiftKeysLeftK K ls i size).bind fun ls' =>
              (K.norm (hi - size)).bind fun k =>
              (appendNewSegment ls' init k).map fun r => (r.1, false)
            else
              let mid := (ls.drop (i + 1)).dropLast.takeWhile (fun n => decide (n.1 ≤ e))
              let lastVal := (mid.getLast?.map (·.2)).getD nd.2
              let rest := ls.drop (i + 1 + mid.length)
              let pre' := joinPre (ls.take i) s lastVal
              (shiftKeysLeftK K (pre' ++ rest) pre'.length size).bind fun ls' =>
              (K.norm (hi - size)).bind fun k =>
              (appendNewSegment ls' init k).map fun r => (r.1, false)

/-- `shift_right` (`fst.inl` 458-519): new leaf list and whether the tree stays valid. -/
def shiftRightLeavesK (K : KeyType) (ls : List (Leaf V)) (init : V) (pos size : Int) (skip : Bool) :
    Outcome (List (Leaf V) × Bool) :=
  if size ≤ 0 then .ok (ls, true)
  else match bounds ls with
  | .err x => .err x
  | .ub => .ub
  | .ok (lo, hi) =>
    if pos < lo ∨ hi ≤ pos then .ok (ls, true)
    else if lo = pos then
      match ls with
      | [] => .ub
      | l :: t =>
        (shiftRightFromK K t 0 hi size).bind fun t' =>
        if l.2 ≠ init ∧ skip = false then
          (K.diff hi lo).bind fun w =>
          if size < w then
            (K.norm (pos + size)).bind fun k => .ok ((l.1, init) :: (k, l.2) :: t', false)
          else .ok ((l.1, init) :: t', false)
        else .ok (l :: t', false)
    else
      match insPos ls pos 1 with
      | none => .ok (ls, true)
      | some i =>
        match ls[i]? with
        | none => .ub
        | some n =>
          let i' := if skip = true ∧ n.1 = pos then i + 1 else i
          if i' < ls.length then (shiftRightFromK K ls i' hi size).map fun r => (r, false)
          else .ok (ls, true)

/-- One call of the public API with keys of type `K`: only the two shifts compute keys. -/
def stepK (K : KeyType) (st : State V) : Op V → Outcome (State V)
  | .shiftLeft s e => applyShift st (shiftLeftLeavesK K st.leaves st.init s e)
  | .shiftRight p n k => applyShift st (shiftRightLeavesK K st.leaves st.init p n k)
  | o => step st o

def runK (K : KeyType) (st : State V) : List (Op V) → Outcome (State V)
  | [] => .ok st
  | o :: os => match stepK K st o with
    | .ok st' => runK K st' os
    | .err e => .err e
    | .ub => .ub

end Mdds.FST
