import Verif.Packed.Objects
import Verif.Trie.ObjectsSpec

/-!
# packed_trie_map: several maps, kept search results and node handles, specification

The contents of a map are a list of entries in ascending order of their keys; they never change.  Contents have an
identity: copying makes new ones, `swap` and moves hand them over to another object.  A handle stands for a prefix of keys in certain
contents; it remembers the object from which it was obtained.
-/
namespace Mdds.Packed.Obj
open Mdds.Trie Mdds.Trie.Kept
open Mdds.Trie.Obj (under)

variable {V : Type}

/-- `node c a q`: prefix `q` of the contents `a`, obtained from object `c`, `none` if this object no longer exists. -/
inductive Place where
  | nothing
  | node (c : Option Nat) (a : Nat) (q : Key)
  | gone
  deriving DecidableEq, Repr

structure SVar where
  place : Place
  search : Bool
  deriving DecidableEq, Repr

/-- `body a = none`: the contents do not exist, or are those of a default-constructed or moved-from map. -/
structure SWorld (V : Type) where
  body : Nat → Option (List (Key × V))
  holds : Nat → Option Nat
  vars : Nat → Option SVar
  next : Nat

def SWorld.empty : SWorld V := ⟨fun _ => none, fun _ => none, fun _ => none, 0⟩

def Place.age (a : Nat) : Place → Place
  | .node c b q => if b = a then .gone else .node c b q
  | p => p

def Place.orphan (c : Nat) : Place → Place
  | .node (some d) b q => if d = c then .node none b q else .node (some d) b q
  | p => p

/-- The contents `a` begin or cease to exist. -/
def SWorld.setBody (s : SWorld V) (a : Nat) (l : Option (List (Key × V))) : SWorld V :=
  { s with
    body := fun b => if b = a then l else s.body b
    vars := fun i => (s.vars i).map fun x => { x with place := x.place.age a } }

def SWorld.setHolds (s : SWorld V) (c : Nat) (a : Option Nat) : SWorld V :=
  { s with holds := fun d => if d = c then a else s.holds d }

/-- New contents for `c`. -/
def SWorld.fresh (s : SWorld V) (c : Nat) (l : Option (List (Key × V))) : SWorld V :=
  ({ s.setBody s.next l with next := s.next + 1 } : SWorld V).setHolds c (some s.next)

def SWorld.drop (s : SWorld V) (c : Nat) : SWorld V :=
  { s.setHolds c none with vars := fun i => (s.vars i).map fun x => { x with place := x.place.orphan c } }

def SWorld.put (s : SWorld V) (i : Nat) (x : SVar) : SWorld V := { s with vars := fun j => if j = i then some x else s.vars j }

/-- The entries of an object. -/
def SWorld.ents (s : SWorld V) (c : Nat) : Option (List (Key × V)) := (s.holds c).bind s.body

/-- The entries that a handle stands for. -/
def SWorld.seen (s : SWorld V) : Place → Option (List (Key × V))
  | .nothing => some []
  | .node _ a q => (s.body a).map (under q)
  | .gone => none

def Place.key : Place → Key
  | .node _ _ q => q
  | _ => []

/-- The object from which the handle was obtained still exists and still has the contents. -/
def SWorld.home (s : SWorld V) : Place → Prop
  | .node (some c) a _ => s.holds c = some a
  | _ => False

/-- The handle of a child. -/
def SWorld.below (s : SWorld V) (u : Nat) : Place → Place
  | .node c a q => match s.body a with
    | some l => if under (q ++ [u]) l = [] then .nothing else .node c a (q ++ [u])
    | none => .gone
  | p => p

/-- One call. -/
def sStep (s : SWorld V) : Cmd V → SWorld V
  | .make c => s.fresh c none
  | .pack c l => s.fresh c (some (l.foldl (fun m e => sInsert e.1 e.2 m) []))
  | .copyNew c d => s.fresh c (s.ents d)
  | .moveNew c d => (s.fresh d none).setHolds c (s.holds d)
  | .destroy c => match s.holds c with
    | some a => (s.setBody a none).drop c
    | none => s
  | .assign c d => match s.holds c with
    | some old => (s.fresh c (s.ents d)).setBody old none
    | none => s
  | .assignMove c d => match (s.fresh d none).holds c with
    | some old => ((s.fresh d none).setHolds c (s.holds d)).setBody old none
    | none => s
  | .swap c d => (s.setHolds c (s.holds d)).setHolds d (s.holds c)
  | .search i c pre => match s.holds c with
    | some a => s.put i ⟨.node (some c) a pre, true⟩
    | none => s
  | .rootNode i c => match s.holds c with
    | some a => s.put i ⟨.node (some c) a [], false⟩
    | none => s
  | .child i j u => match s.vars j with
    | some x => s.put i ⟨s.below u x.place, false⟩
    | none => s
  | .copyNode i j => match s.vars j with
    | some x => s.put i x
    | none => s
  | .size _ | .loop _ | .valid _ | .hasChild _ | .hasValue _ | .value _ => s

/-- What the program is told. -/
def sAns (s : SWorld V) : Cmd V → Ans V → Prop
  | .size c, a => ∃ l, s.ents c = some l ∧ a = .num l.length
  | .loop i, a => ∃ x l, s.vars i = some x ∧ s.seen x.place = some l ∧ a = .list l
  | .valid i, a => ∃ x, s.vars i = some x ∧ a = .bool (decide (x.place ≠ .nothing))
  | .hasChild i, a => ∃ x l, s.vars i = some x ∧ s.seen x.place = some l ∧
      a = .bool (l.any fun e => decide (e.1 ≠ x.place.key))
  | .hasValue i, a => ∃ x l, s.vars i = some x ∧ s.seen x.place = some l ∧ a = .bool (lookup l x.place.key).isSome
  | .value i, a => ∃ x l v, s.vars i = some x ∧ s.seen x.place = some l ∧ lookup l x.place.key = some v ∧ a = .val v
  | _, a => a = .unit

/-- The entries can be packed into cells of the given range. -/
def Fits (cap : Nat) (l : List (Key × V)) : Prop :=
  (∃ p, Packed.pack cap (build l) = .ok p ∧ p.pk.length ≤ cap) ∧ ∀ e ∈ l, ∀ u ∈ e.1, u < cap

/-- Calls the property speaks of.  A map that was default-constructed or moved from may only be moved, assigned to,
swapped or destroyed.  Questions about the keys may be asked of a handle while its contents exist, in whatever object;
values may be read only while they are in the object from which the handle was obtained (`C77_swap_fails`,
`C77_move_fails`). -/
def Legal (cap : Nat) (s : SWorld V) : Cmd V → Prop
  | .make c => s.holds c = none
  | .pack c l => s.holds c = none ∧ Fits cap l
  | .copyNew c d => s.holds c = none ∧ s.ents d ≠ none
  | .moveNew c d => s.holds c = none ∧ s.holds d ≠ none
  | .destroy c => s.holds c ≠ none
  | .assign c d => s.holds c ≠ none ∧ s.ents d ≠ none
  | .assignMove c d => s.holds c ≠ none ∧ s.holds d ≠ none
  | .swap c d => s.holds c ≠ none ∧ s.holds d ≠ none
  | .size c => s.ents c ≠ none
  | .search _ c _ => s.ents c ≠ none
  | .rootNode _ c => s.ents c ≠ none
  | .child _ j _ => ∃ x, s.vars j = some x ∧ x.search = false ∧ s.seen x.place ≠ none
  | .copyNode _ j => ∃ x, s.vars j = some x ∧ x.search = false ∧ x.place ≠ .gone
  | .loop i => ∃ x, s.vars i = some x ∧ x.search = true ∧ s.seen x.place ≠ none ∧ s.home x.place
  | .valid i => ∃ x, s.vars i = some x ∧ x.search = false ∧ x.place ≠ .gone
  | .hasChild i | .hasValue i => ∃ x, s.vars i = some x ∧ x.search = false ∧ s.seen x.place ≠ none
  | .value i => ∃ x l, s.vars i = some x ∧ x.search = false ∧ s.seen x.place = some l ∧ s.home x.place ∧
      (lookup l x.place.key).isSome

/-- Every call of the program is legal. -/
def LegalRun (cap : Nat) : SWorld V → List (Cmd V) → Prop
  | _, [] => True
  | s, c :: cs => Legal cap s c ∧ LegalRun cap (sStep s c) cs

/-- The answers are those of the specification. -/
def Answers : SWorld V → List (Cmd V) → List (Ans V) → Prop
  | _, [], as => as = []
  | s, c :: cs, as => ∃ a as', as = a :: as' ∧ sAns s c a ∧ Answers (sStep s c) cs as'

end Mdds.Packed.Obj
