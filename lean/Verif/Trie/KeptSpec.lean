import Verif.Trie.Kept

/-!
# trie_map: iterators kept while the map changes, specification

The map is a list of entries in ascending order of their keys.  An iterator is a cursor: it stands at a key or
behind the last entry.  It is `gone` once its key was erased.  A cursor at a key is fresh as long as no call has
changed which unit comes first after its key, that is, the smallest unit `c` for which some stored key begins with the
key and `c`.
-/
namespace Mdds.Trie.Kept
open Mdds.Trie

variable {V : Type}

inductive Cur where
  | at (k : Key) (fresh : Bool)
  | end_
  | gone
  deriving DecidableEq, Repr

structure Spec (V : Type) where
  ents : List (Key × V)
  curs : Nat → Option Cur

def Spec.empty : Spec V := ⟨[], fun _ => none⟩

/-- The stored value of a key. -/
def lookup (l : List (Key × V)) (k : Key) : Option V := (l.find? fun e => e.1 = k).map (·.2)

def sInsert (k : Key) (v : V) (l : List (Key × V)) : List (Key × V) :=
  l.filter (fun e => decide (e.1 < k)) ++ (k, v) :: l.filter (fun e => decide (k < e.1))

def sErase (k : Key) (l : List (Key × V)) : List (Key × V) := l.filter fun e => e.1 ≠ k

/-- The entry of `k` gets another value. -/
def sWrite (k : Key) (v : V) (l : List (Key × V)) : List (Key × V) := l.map fun e => if e.1 = k then (k, v) else e

/-- The unit that follows `k` in a longer key. -/
def unitAfter (k k' : Key) : Option Nat := if k <+: k' then (k'.drop k.length).head? else none

/-- The smallest unit that follows `k` in a stored key. -/
def firstBelow (l : List (Key × V)) (k : Key) : Option Nat := (l.filterMap fun e => unitAfter k e.1).min?

/-- The first key after `k`, the last key before `k`. -/
def nextKey (l : List (Key × V)) (k : Key) : Option Key := (l.filter fun e => decide (k < e.1)).head?.map (·.1)
def prevKey (l : List (Key × V)) (k : Key) : Option Key := (l.filter fun e => decide (e.1 < k)).getLast?.map (·.1)

/-- A cursor at a key, or at the end if there is none. -/
def toCur : Option Key → Cur
  | some k => .at k true
  | none => .end_

/-- A cursor after the entries have changed from `l` to `l'`. -/
def Cur.age (l l' : List (Key × V)) : Cur → Cur
  | .at k fresh =>
    if (lookup l' k).isNone then .gone else .at k (fresh && decide (firstBelow l k = firstBelow l' k))
  | .end_ => .end_
  | .gone => .gone

def Spec.change (s : Spec V) (l : List (Key × V)) : Spec V := ⟨l, fun i => (s.curs i).map (Cur.age s.ents l)⟩

def Spec.put (s : Spec V) (i : Nat) (c : Cur) : Spec V := { s with curs := fun j => if j = i then some c else s.curs j }

/-- One call. Cursors that may not be moved stay where they are; `Legal` excludes those calls. -/
def sStep (s : Spec V) : Cmd V → Spec V
  | .insert k v => s.change (sInsert k v s.ents)
  | .erase k => s.change (sErase k s.ents)
  | .clear => s.change []
  | .begin_ i => s.put i (toCur (s.ents.head?.map (·.1)))
  | .end_ i => s.put i .end_
  | .find i k => s.put i (if (lookup s.ents k).isSome then .at k true else .end_)
  | .inc i => match s.curs i with
    | some (.at k _) => s.put i (toCur (nextKey s.ents k))
    | _ => s
  | .dec i => match s.curs i with
    | some (.at k _) => s.put i (toCur (prevKey s.ents k))
    | some .end_ => s.put i (toCur (s.ents.getLast?.map (·.1)))
    | _ => s
  | .copy i j => match s.curs j with
    | some c => s.put i c
    | none => s
  | .deref _ => s
  | .write i v => match s.curs i with
    | some (.at k _) => { s with ents := sWrite k v s.ents }
    | _ => s
  | .eq _ _ => s

/-- What the program is told. -/
def sAns (s : Spec V) : Cmd V → Ans V → Prop
  | .erase k, a => a = .bool (lookup s.ents k).isSome
  | .deref i, a => ∃ k fresh v, s.curs i = some (.at k fresh) ∧ lookup s.ents k = some v ∧ a = .entry k v
  | .eq i j, a => ∃ b, a = .bool b ∧ (b = true ↔
      (s.curs i = some .end_ ∧ s.curs j = some .end_) ∨ ∃ k f g, s.curs i = some (.at k f) ∧ s.curs j = some (.at k g))
  | _, a => a = .unit

/-- `k` is stored, or no stored key is `k` without its last two or more units (`C18_erase_fails`, `C17_find_fails`). -/
def SafeKey (l : List (Key × V)) (k : Key) : Prop :=
  (lookup l k).isSome ∨ ∀ q c d r, k = q ++ c :: d :: r → lookup l q = none

/-- Going back from `k` to `k'` works (`C20_dec_fails`): no longer key starts with `k`, or `k'` is a prefix of `k`, or
they begin with different units. -/
def BackOk (l : List (Key × V)) (k k' : Key) : Prop :=
  (∀ e ∈ l, k <+: e.1 → e.1 = k) ∨ k' <+: k ∨ k'.head? ≠ k.head?

/-- Calls the property speaks of.  The empty key is not stored (`C19_iterate_fails`). -/
def Legal (s : Spec V) : Cmd V → Prop
  | .insert k _ => k ≠ []
  | .erase k => SafeKey s.ents k
  | .clear => True
  | .begin_ _ => True
  | .end_ _ => True
  | .find _ k => SafeKey s.ents k
  | .inc i => ∃ k, s.curs i = some (.at k true)
  | .dec i => (s.curs i = some .end_ ∧ s.ents ≠ []) ∨
      ∃ k k', s.curs i = some (.at k true) ∧ prevKey s.ents k = some k' ∧ BackOk s.ents k k'
  | .copy _ j => s.curs j ≠ none
  | .deref i => ∃ k f, s.curs i = some (.at k f)
  | .write i _ => ∃ k f, s.curs i = some (.at k f)
  | .eq i j => ∃ a b, s.curs i = some a ∧ s.curs j = some b ∧ a ≠ .gone ∧ b ≠ .gone ∧
      ∀ k f g, a = .at k f → b = .at k g → f = true ∧ g = true

/-- Every call of the program is legal. -/
def LegalRun : Spec V → List (Cmd V) → Prop
  | _, [] => True
  | s, c :: cs => Legal s c ∧ LegalRun (sStep s c) cs

/-- The answers are those of the specification. -/
def Answers : Spec V → List (Cmd V) → List (Ans V) → Prop
  | _, [], as => as = []
  | s, c :: cs, as => ∃ a as', as = a :: as' ∧ sAns s c a ∧ Answers (sStep s c) cs as'

end Mdds.Trie.Kept
