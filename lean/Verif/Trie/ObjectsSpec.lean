import Verif.Trie.Objects
import Verif.Trie.KeptSpec

/-!
# trie_map: several maps, kept search results and node handles, specification

The contents of a map are a list of entries in ascending order of their keys.  Contents have an identity: assigning
copied contents makes new ones, `swap` and moves hand them over to another object.  A handle for a non-empty prefix belongs to the
contents: it stands for the entries with this prefix wherever the contents are, until the last of them is erased.
A handle for the empty prefix belongs to the object.
-/
namespace Mdds.Trie.Obj
open Mdds.Trie Mdds.Trie.Kept

variable {V : Type}

inductive Place where
  | nothing
  | whole (c : Nat)
  | part (a : Nat) (q : Key)
  | gone
  deriving DecidableEq, Repr

/-- `search` is the prefix of a search result; a node handle has none. -/
structure SVar where
  place : Place
  search : Option Key
  deriving DecidableEq, Repr

/-- `body a = none`: the contents do not exist, or nothing is known of them after a move. -/
structure SWorld (V : Type) where
  body : Nat → Option (List (Key × V))
  holds : Nat → Option Nat
  vars : Nat → Option SVar
  next : Nat

def SWorld.empty : SWorld V := ⟨fun _ => none, fun _ => none, fun _ => none, 0⟩

/-- The entries with a prefix. -/
def under (q : Key) (l : List (Key × V)) : List (Key × V) := l.filter fun e => decide (q <+: e.1)

/-- A handle after the contents `a` have become `l`. -/
def Place.age (a : Nat) (l : Option (List (Key × V))) : Place → Place
  | .part b q => if b = a then
      match l with
      | some l => if under q l ≠ [] then .part b q else .gone
      | none => .gone
    else .part b q
  | p => p

def Place.drop (c : Nat) : Place → Place
  | .whole d => if d = c then .gone else .whole d
  | p => p

def SWorld.setBody (s : SWorld V) (a : Nat) (l : Option (List (Key × V))) : SWorld V :=
  { s with
    body := fun b => if b = a then l else s.body b
    vars := fun i => (s.vars i).map fun x => { x with place := x.place.age a l } }

def SWorld.setHolds (s : SWorld V) (c : Nat) (a : Option Nat) : SWorld V :=
  { s with holds := fun d => if d = c then a else s.holds d }

/-- New contents for `c`. -/
def SWorld.fresh (s : SWorld V) (c : Nat) (l : Option (List (Key × V))) : SWorld V :=
  { (s.setBody s.next l).setHolds c (some s.next) with next := s.next + 1 }

def SWorld.put (s : SWorld V) (i : Nat) (x : SVar) : SWorld V := { s with vars := fun j => if j = i then some x else s.vars j }

/-- The entries of an object. -/
def SWorld.ents (s : SWorld V) (c : Nat) : Option (List (Key × V)) := (s.holds c).bind s.body

/-- The entries that a handle stands for. -/
def SWorld.seen (s : SWorld V) : Place → Option (List (Key × V))
  | .nothing => some []
  | .whole c => s.ents c
  | .part a q => (s.body a).map (under q)
  | .gone => none

/-- The key of the node of a handle. -/
def Place.key : Place → Key
  | .part _ q => q
  | _ => []

/-- The handle for a longer key. -/
def SWorld.below (s : SWorld V) (p : Place) (k : Key) : Place :=
  if k = [] then p else
  match s.seen p with
  | none => .gone
  | some l => if under (p.key ++ k) l = [] then .nothing else
    match p with
    | .whole c => match s.holds c with
      | some a => .part a k
      | none => .gone
    | .part a q => .part a (q ++ k)
    | p => p

def SWorld.change (s : SWorld V) (c : Nat) (f : List (Key × V) → List (Key × V)) : SWorld V :=
  match s.holds c with
  | some a => s.setBody a ((s.body a).map f)
  | none => s

/-- What a move leaves in the source: nothing; if the empty key was stored, this is not known (`C76_moved_from_fails`). -/
def remains : Option (List (Key × V)) → Option (List (Key × V))
  | some l => if (lookup l []).isNone then some [] else none
  | none => none

/-- One call. -/
def sStep (s : SWorld V) : Cmd V → SWorld V
  | .make c => s.fresh c (some [])
  | .copyNew c d => s.fresh c (s.ents d)
  | .moveNew c d => (s.fresh d (remains (s.ents d))).setHolds c (s.holds d)
  | .destroy c => match s.holds c with
    | some a =>
      { (s.setBody a none).setHolds c none with
        vars := fun i => ((s.setBody a none).vars i).map fun x => { x with place := x.place.drop c } }
    | none => s
  | .assign c d => match s.holds c with
    | some old => (s.fresh c (s.ents d)).setBody old none
    | none => s
  | .assignMove c d => match (s.fresh d (remains (s.ents d))).holds c with
    | some old => ((s.fresh d (remains (s.ents d))).setHolds c (s.holds d)).setBody old none
    | none => s
  | .swap c d => (s.setHolds c (s.holds d)).setHolds d (s.holds c)
  | .insert c k v => s.change c (sInsert k v)
  | .erase c k => s.change c (sErase k)
  | .clear c => match s.holds c with
    | some a => s.setBody a (some [])
    | none => s
  | .search i c pre => s.put i ⟨s.below (.whole c) pre, some pre⟩
  | .rootNode i c => s.put i ⟨.whole c, none⟩
  | .child i j u => match s.vars j with
    | some x => s.put i ⟨s.below x.place [u], none⟩
    | none => s
  | .copyVar i j => match s.vars j with
    | some x => s.put i x
    | none => s
  | .size _ | .equal _ _ | .loop _ | .valid _ | .hasChild _ | .hasValue _ | .value _ => s

/-- What the program is told. -/
def sAns (s : SWorld V) : Cmd V → Ans V → Prop
  | .erase c k, a => ∃ l, s.ents c = some l ∧ a = .bool (lookup l k).isSome
  | .size c, a => ∃ l, s.ents c = some l ∧ a = .num l.length
  | .equal c d, a => ∃ l l' b, s.ents c = some l ∧ s.ents d = some l' ∧ a = .bool b ∧ (b = true ↔ l = l')
  | .loop i, a => ∃ x l, s.vars i = some x ∧ s.seen x.place = some l ∧ a = .list l
  | .valid i, a => ∃ x, s.vars i = some x ∧ a = .bool (decide (x.place ≠ .nothing))
  | .hasChild i, a => ∃ x l, s.vars i = some x ∧ s.seen x.place = some l ∧
      a = .bool (l.any fun e => decide (e.1 ≠ x.place.key))
  | .hasValue i, a => ∃ x l, s.vars i = some x ∧ s.seen x.place = some l ∧ a = .bool (lookup l x.place.key).isSome
  | .value i, a => ∃ x l v, s.vars i = some x ∧ s.seen x.place = some l ∧ lookup l x.place.key = some v ∧ a = .val v
  | _, a => a = .unit

/-- Calls the property speaks of.  A map that stored the empty key may after a move only be
cleared, assigned to, swapped or destroyed.  A handle may be used
while the object (empty prefix) or the entries with its prefix exist.  The loop over the result of a search with the
empty prefix needs a map that is not empty (`C19_prefix_search_empty_fails`). -/
def Legal (s : SWorld V) : Cmd V → Prop
  | .make c => s.holds c = none
  | .copyNew c d => s.holds c = none ∧ s.ents d ≠ none
  | .moveNew c d => s.holds c = none ∧ s.ents d ≠ none
  | .destroy c => s.holds c ≠ none
  | .assign c d => s.holds c ≠ none ∧ s.ents d ≠ none
  | .assignMove c d => s.holds c ≠ none ∧ s.ents d ≠ none
  | .swap c d => s.holds c ≠ none ∧ s.holds d ≠ none
  | .insert c _ _ => s.ents c ≠ none
  | .erase c k => ∃ l, s.ents c = some l ∧ SafeKey l k
  | .clear c => s.holds c ≠ none
  | .size c => s.ents c ≠ none
  | .equal c d => s.ents c ≠ none ∧ s.ents d ≠ none
  | .search _ c _ => s.ents c ≠ none
  | .rootNode _ c => s.holds c ≠ none
  | .child _ j _ => ∃ x, s.vars j = some x ∧ x.search = none ∧ s.seen x.place ≠ none
  | .copyVar _ j => s.vars j ≠ none
  | .loop i => ∃ x, s.vars i = some x ∧ x.search ≠ none ∧ s.seen x.place ≠ none ∧
      (∀ c, x.place = .whole c → s.ents c ≠ some [])
  | .valid i => ∃ x, s.vars i = some x ∧ x.search = none ∧ x.place ≠ .gone
  | .hasChild i | .hasValue i => ∃ x, s.vars i = some x ∧ x.search = none ∧ s.seen x.place ≠ none
  | .value i => ∃ x l, s.vars i = some x ∧ x.search = none ∧ s.seen x.place = some l ∧ (lookup l x.place.key).isSome

/-- Every call of the program is legal. -/
def LegalRun : SWorld V → List (Cmd V) → Prop
  | _, [] => True
  | s, c :: cs => Legal s c ∧ LegalRun (sStep s c) cs

/-- The answers are those of the specification. -/
def Answers : SWorld V → List (Cmd V) → List (Ans V) → Prop
  | _, [], as => as = []
  | s, c :: cs, as => ∃ a as', as = a :: as' ∧ sAns s c a ∧ Answers (sStep s c) cs as'

end Mdds.Trie.Obj
