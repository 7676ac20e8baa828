import Verif.FST.TreeHeap

/-!
# What programs with searches and iterators should see

A container is a list of leaves and a note whether its tree may be used; an iterator is the number
of a leaf of a container.  Nothing here knows about nodes.
-/
namespace Mdds.FST.Pool

open Mdds.FST.Mem (Call Out Objs Obj listStep upd off fromTo exch)

variable {V : Type}

/-- An iterator: made by container `db`, it stands at leaf `idx` of container `owner`.  These are
different containers when leaves have been moved or swapped since. -/
structure Place where
  db : Nat
  owner : Nat
  idx : Nat
  fin : Bool
  deriving DecidableEq, Repr

/-- What the program has: containers, which of them have a tree that can be used, and iterators.
An iterator that may no longer be used is `none`. -/
structure World (V : Type) where
  objs : Objs V
  valid : Nat → Bool
  it : Nat → Option Place

def World.start : World V := ⟨fun _ => none, fun _ => false, fun _ => none⟩

/-- The segment that contains the key: its number, its value, its two ends. -/
def segmentAt (key : Int) : Nat → List (Leaf V) → Option (Hit V)
  | i, a :: b :: rest => if a.1 ≤ key ∧ key < b.1 then some ⟨i, a.2, a.1, b.1⟩ else segmentAt key (i + 1) (b :: rest)
  | _, _ => none

/-- Where the leaves of container `q` are after a call that reported `flag`; `none` if they are
gone or may have been changed. -/
def goes (c : Call V) (flag : Bool) (q : Nat) : Option Nat :=
  match c with
  | .make o _ _ _ => if q = o then none else some q
  | .destroy o => if q = o then none else some q
  | .copy o _ => if q = o then none else some q
  | .move o r => if q = o then none else if q = r then some o else some q
  | .assignCopy o _ => if q = o then none else some q
  | .assignMove o r => if o = r then some q else if q = o then none else if q = r then some o else some q
  | .swap a b => if q = a then some b else if q = b then some a else some q
  | .clear o => if q = o then none else some q
  | .insert o _ _ _ _ => if flag = true ∧ q = o then none else some q
  | .insertAt o _ _ _ _ => if flag = true ∧ q = o then none else some q
  | .shiftLeft o _ _ => if flag = false ∧ q = o then none else some q
  | .shiftRight o _ _ _ => if flag = false ∧ q = o then none else some q

/-- A tree can be used after a call if the container has got it unchanged from a container where
it could be used. -/
def validAfter (c : Call V) (flag : Bool) (valid : Nat → Bool) (p : Nat) : Bool :=
  match Mdds.FST.Mem.origin c flag p with
  | none => false
  | some q => valid q

/-- The iterator a search returns: the leaf found, or the end. -/
def resultPlace (o : Nat) (ls : List (Leaf V)) : Option (Hit V) → Option Place
  | some h => some ⟨o, o, h.idx, false⟩
  | none => if ls = [] then none else some ⟨o, o, ls.length - 1, true⟩

def report (h : Option (Hit V)) : Found V := h.map fun h => (h.value, h.start, h.stop)

/-- A position may be given to a search of container `o` if it stands in this container, or was
not made by it. -/
def hintOk (W : World V) (o : Nat) : Option Nat → Prop
  | none => True
  | some y => ∃ i, W.it y = some i ∧ (i.db = o → i.owner = o)

instance (W : World V) (o : Nat) (hint : Option Nat) : Decidable (hintOk W o hint) :=
  match hint with
  | none => isTrue trivial
  | some y => match h : W.it y with
    | none => isFalse fun ⟨i, e, _⟩ => by rw [h] at e; cases e
    | some i => decidable_of_iff (i.db = o → i.owner = o)
        ⟨fun k => ⟨i, h, k⟩, fun ⟨j, e, k⟩ => by rw [h] at e; cases e; exact k⟩

section
variable [DecidableEq V]

/-- One call. -/
def specStep (dv : V) (W : World V) : Cmd V → Outcome (World V × Ret V)
  | .call c =>
    match listStep dv W.objs c with
    | .ok (S, out) => .ok (⟨S, validAfter c out.2 W.valid,
        fun x => (W.it x).bind fun i => (goes c out.2 i.owner).map fun p => { i with owner := p }⟩, .out out)
    | .err e => .err e
    | .ub => .ub
  | .build o =>
    match W.objs o with
    | none => .ub
    | some x => .ok ({ W with valid := upd W.valid o (decide (x.leaves ≠ [])) }, .nothing)
  | .find x o key =>
    match W.objs o with
    | none => .ub
    | some ob =>
      let h := if W.valid o then segmentAt key 0 ob.leaves else none
      .ok ({ W with it := upd W.it x (resultPlace o ob.leaves h) }, .found (report h))
  | .scan x o key hint =>
    match W.objs o with
    | none => .ub
    | some ob =>
      if ob.leaves = [] ∨ ¬ hintOk W o hint then .ub
      else
        let h := segmentAt key 0 ob.leaves
        .ok ({ W with it := upd W.it x (resultPlace o ob.leaves h) }, .found (report h))
  | .begin x o =>
    match W.objs o with
    | none => .ub
    | some ob => .ok ({ W with it := upd W.it x (if ob.leaves = [] then none else some ⟨o, o, 0, false⟩) }, .nothing)
  | .next x =>
    match W.it x with
    | none => .ub
    | some i =>
      if i.db = i.owner then
        match W.objs i.owner with
        | none => .ub
        | some ob => .ok ({ W with it := upd W.it x (some (if i.idx + 1 = ob.leaves.length then { i with fin := true }
            else { i with idx := i.idx + 1 })) }, .nothing)
      else .ub
  | .look x =>
    match W.it x with
    | none => .ub
    | some i => match W.objs i.owner with
      | none => .ub
      | some ob => match ob.leaves[i.idx]? with
        | none => .ub
        | some l => .ok (W, .leaf l)

def specRun (dv : V) (W : World V) : List (Cmd V) → Outcome (World V × List (Ret V))
  | [] => .ok (W, [])
  | c :: cs => match specStep dv W c with
    | .ok (W', r) => match specRun dv W' cs with
      | .ok (W'', rs) => .ok (W'', r :: rs)
      | .err e => .err e
      | .ub => .ub
    | .err e => .err e
    | .ub => .ub

end

end Mdds.FST.Pool
