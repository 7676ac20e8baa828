import Verif.Mtv.Api

/-!
# multi_type_vector: specification

What a user sees is a sequence of cells.  A cell is empty or holds a value of one of the
element types.  Every call is described as an operation on that list.
-/

namespace Mdds.Mtv

/-- A cell: empty, or a typed value. -/
abbrev Cell (α : Type) := Option (Ty × α)

/-- The sequence a container shows: the values of its blocks one after the other. -/
def contents {α : Type} (s : St α) : List (Cell α) :=
  s.blocks.flatMap fun b =>
    match b.data with
    | none => List.replicate b.size none
    | some d => d.vals.map fun v => some (d.ty, v)

/-- The public modifying calls.  `At` says which overload (with or without a hint). -/
inductive Call (α : Type) where
  | set (h : At) (pos : Nat) (ty : Ty) (x : α)
  | setRange (h : At) (pos : Nat) (ty : Ty) (vs : List α)
  | insert (h : At) (pos : Nat) (ty : Ty) (vs : List α)
  | insertEmpty (h : At) (pos len : Nat)
  | setEmpty (h : At) (first last : Nat)
  | erase (first last : Nat)
  | pushBack (ty : Ty) (x : α)
  | pushBackEmpty
  | resize (n : Nat)
  | clear
  | release (h : At) (pos : Nat) (ty : Ty)
  | releaseRange (h : At) (first last : Nat)
  | releaseAll

variable {α : Type}

/-- Values of type `ty` as cells. -/
def cellsOf (ty : Ty) (vs : List α) : List (Cell α) := vs.map fun v => some (ty, v)

/-- The wanted sequence after a call; `none` when the call has to throw `out_of_range`. -/
def Call.spec (L : List (Cell α)) : Call α → Option (List (Cell α))
  | .set _ pos ty x => if pos < L.length then some (L.set pos (some (ty, x))) else none
  | .setRange _ pos ty vs =>
    if vs = [] then some L
    else if pos + vs.length ≤ L.length then some (L.take pos ++ cellsOf ty vs ++ L.drop (pos + vs.length)) else none
  | .insert _ pos ty vs =>
    if pos < L.length then some (L.take pos ++ cellsOf ty vs ++ L.drop pos) else none
  | .insertEmpty _ pos len =>
    if len = 0 then some L
    else if pos < L.length then some (L.take pos ++ List.replicate len none ++ L.drop pos) else none
  | .setEmpty _ first last | .releaseRange _ first last =>
    if first ≤ last ∧ last < L.length then
      some (L.take first ++ List.replicate (last - first + 1) none ++ L.drop (last + 1)) else none
  | .erase first last =>
    if first ≤ last ∧ last < L.length then some (L.take first ++ L.drop (last + 1)) else none
  | .pushBack ty x => some (L ++ [some (ty, x)])
  | .pushBackEmpty => some (L ++ [none])
  | .resize n => some (L.take n ++ List.replicate (n - L.length) none)
  | .clear | .releaseAll => some []
  | .release _ pos _ => if pos < L.length then some (L.set pos none) else none

/-- The sequence after a call that may throw: a throwing call changes nothing. -/
def Call.after (c : Call α) (L : List (Cell α)) : List (Cell α) := (c.spec L).getD L

/-- The sequence after a history of calls. -/
def specRun (L : List (Cell α)) (cs : List (Call α)) : List (Cell α) := cs.foldl (fun L c => c.after L) L

/-- The values a successful call hands to the container. -/
def Call.given : Call α → List (Ty × α)
  | .set _ _ ty x | .pushBack ty x => [(ty, x)]
  | .setRange _ _ ty vs | .insert _ _ ty vs => vs.map fun v => (ty, v)
  | _ => []

/-- The values of a stretch of cells. -/
def valuesOf (L : List (Cell α)) : List (Ty × α) := L.filterMap id

/-- The values a successful call gives back to the caller instead of destroying them. -/
def Call.handedOut (L : List (Cell α)) : Call α → List (Ty × α)
  | .release _ pos _ => valuesOf ((L.drop pos).take 1)
  | .releaseRange _ first last => valuesOf ((L.drop first).take (last - first + 1))
  | .releaseAll => valuesOf L
  | _ => []

/-- The type of cell `i`; `none` for an empty cell and past the end. -/
def typeAt (L : List (Cell α)) (i : Nat) : Option Ty := (L[i]?.bind id).map Prod.fst

/-- The overload of a call. -/
def Call.at_ : Call α → At
  | .set h .. | .setRange h .. | .insert h .. | .insertEmpty h .. | .setEmpty h .. | .release h ..
  | .releaseRange h .. => h
  | _ => none

/-- Calls whose behaviour is defined.
* A hint is used only on a non-empty container (finding M5; range `set` and a zero length
  `insert_empty` check their arguments before the hint is looked at).
* `release` names the type of the cell.
* `resize` does not cut a run of a managed type in two (finding M4). -/
def Call.Defined (L : List (Cell α)) (c : Call α) : Prop :=
  (c.at_ ≠ none → L ≠ []) ∧
  match c with
  | .release _ pos ty => typeAt L pos = none ∨ typeAt L pos = some ty
  | .resize n => ¬ (0 < n ∧ ∃ t, t.managed = true ∧ typeAt L n = some t ∧ typeAt L (n - 1) = some t)
  | _ => True

/-- Calls that do not lose managed objects (finding M2): not a range `set` that starts in a
run of its own type and ends inside a run of a managed type. -/
def Call.NoLeak (L : List (Cell α)) : Call α → Prop
  | .setRange _ pos ty vs => ¬ (typeAt L pos = some ty ∧ ∃ t, t.managed = true ∧ t ≠ ty ∧
      typeAt L (pos + vs.length - 1) = some t ∧ typeAt L (pos + vs.length) = some t)
  | _ => True

/-- Calls that keep the blocks maximal (finding M7): not a range `set` that starts in a run of
its own type, ends at the end of a run of another type and is followed by a run of its own
type. -/
def Call.NoGap (L : List (Cell α)) : Call α → Prop
  | .setRange _ pos ty vs => ¬ (typeAt L pos = some ty ∧ typeAt L (pos + vs.length) = some ty ∧
      typeAt L (pos + vs.length - 1) ≠ some ty)
  | _ => True

/-- Calls that report every block they create and destroy (finding M1 and the replacement of
the block object in `set_cells_to_single_block`): not an `insert` in front of a run of another
type that does not extend the run before it, and not a range `set` of another type that begins
and is followed by cells of one and the same type. -/
def Call.NoMiss (L : List (Cell α)) : Call α → Prop
  | .setRange _ pos ty vs => ¬ ∃ t, t ≠ ty ∧ typeAt L pos = some t ∧ typeAt L (pos + vs.length) = some t
  | .insert _ pos ty vs => vs = [] ∨ ¬ (typeAt L pos ≠ none ∧ typeAt L pos ≠ some ty ∧
      (pos = 0 ∨ (typeAt L (pos - 1) ≠ some ty ∧ typeAt L (pos - 1) ≠ typeAt L pos)))
  | _ => True

/-- A property of the calls of a history, each with the sequence it is made on. -/
def Along (P : List (Cell α) → Call α → Prop) : List (Cell α) → List (Call α) → Prop
  | _, [] => True
  | L, c :: cs => P L c ∧ Along P (c.after L) cs

/-- All values given to the container along a history (by calls that do not throw). -/
def givenBy : List (Cell α) → List (Call α) → List (Ty × α)
  | _, [] => []
  | L, c :: cs => (if (c.spec L).isSome then c.given else []) ++ givenBy (c.after L) cs

/-- All values handed back along a history. -/
def handedBy : List (Cell α) → List (Call α) → List (Ty × α)
  | _, [] => []
  | L, c :: cs => (if (c.spec L).isSome then c.handedOut L else []) ++ handedBy (c.after L) cs

/-- What a call returns: nothing, an iterator (block index), or a value and an iterator. -/
inductive Ret (α : Type) where
  | unit
  | iter (i : Nat)
  | val (v : Option α) (i : Nat)
  deriving DecidableEq, Repr

/-- The call on the model. -/
def Call.run : Call α → M α (Ret α)
  | .set h pos ty x => do let i ← Mtv.set h pos ty x; M.pure (.iter i)
  | .setRange h pos ty vs => do let i ← Mtv.setRange h pos ty vs; M.pure (.iter i)
  | .insert h pos ty vs => do let i ← Mtv.insert h pos ty vs; M.pure (.iter i)
  | .insertEmpty h pos n => do let i ← Mtv.insertEmpty h pos n; M.pure (.iter i)
  | .setEmpty h p q => do let i ← Mtv.setEmpty h p q; M.pure (.iter i)
  | .erase p q => do Mtv.erase p q; M.pure .unit
  | .pushBack ty x => do let i ← Mtv.pushBack ty x; M.pure (.iter i)
  | .pushBackEmpty => do let i ← Mtv.pushBackEmpty; M.pure (.iter i)
  | .resize n => do Mtv.resize n; M.pure .unit
  | .clear => do Mtv.clear; M.pure .unit
  | .release h pos ty => do let r ← Mtv.release h pos ty; M.pure (.val r.1 r.2)
  | .releaseRange h p q => do let i ← Mtv.releaseRange h p q; M.pure (.iter i)
  | .releaseAll => do Mtv.releaseAll; M.pure .unit

/-- A history: exceptions are caught by the caller, who goes on with the state they leave. -/
def runAll : List (Call α) → St α → Option (St α)
  | [], s => some s
  | c :: cs, s =>
    match c.run s with
    | .ok (_, s') => runAll cs s'
    | .err _ s' => runAll cs s'
    | .ub => none

/-- The block of the container a returned iterator points to, if it is not the end. -/
def pointsTo (s : St α) (i pos : Nat) : Prop :=
  ∃ b, s.blocks[i]? = some b ∧ b.pos ≤ pos ∧ pos < b.pos + b.size

/-- What the returned iterator or value has to be.  Calls given nothing to do return the end
iterator. -/
def Call.RetOk (L : List (Cell α)) (c : Call α) (r : Ret α) (s : St α) : Prop :=
  match c, r with
  | .set _ pos _ _, .iter i => pointsTo s i pos
  | .setRange _ pos _ vs, .iter i | .insert _ pos _ vs, .iter i =>
    if vs = [] then i = s.blocks.length else pointsTo s i pos
  | .insertEmpty _ pos n, .iter i => if n = 0 then i = s.blocks.length else pointsTo s i pos
  | .setEmpty _ p _, .iter i | .releaseRange _ p _, .iter i => pointsTo s i p
  | .pushBack _ _, .iter i | .pushBackEmpty, .iter i => pointsTo s i L.length
  | .release _ pos ty, .val v i => pointsTo s i pos ∧ L[pos]? = some (v.map fun x => (ty, x))
  | .erase _ _, .unit | .resize _, .unit | .clear, .unit | .releaseAll, .unit => True
  | _, _ => False

/-- The constructors. -/
inductive Ctor (α : Type) where
  | default
  | sized (n : Nat)
  | range (n : Nat) (ty : Ty) (vs : List α)

/-- A constructor on the model. -/
def Ctor.run : Ctor α → Outcome (St α)
  | .default => .ok mk0
  | .sized n => .ok (mkSize n)
  | .range n ty vs => mkRange n ty vs

/-- The sequence a constructed container has to show; `none` when the constructor has to throw. -/
def Ctor.spec : Ctor α → Option (List (Cell α))
  | .default => some []
  | .sized n => some (List.replicate n none)
  | .range n ty vs => if n = 0 then some [] else if n = vs.length then some (cellsOf ty vs) else none

/-- The values handed to a constructor. -/
def Ctor.given : Ctor α → List (Ty × α)
  | .range n ty vs => if n = 0 then [] else vs.map fun v => (ty, v)
  | _ => []

/-- States reached from a constructor by a history of calls with defined behaviour that all
satisfy `P`. -/
def ReachedBy (P : List (Cell α) → Call α → Prop) (s : St α) : Prop :=
  ∃ (k : Ctor α) (s₀ : St α) (cs : List (Call α)), k.run = .ok s₀ ∧ Along Call.Defined (contents s₀) cs ∧
    Along P (contents s₀) cs ∧ runAll cs s₀ = some s

/-- States reached by any history of calls with defined behaviour. -/
def Reachable (s : St α) : Prop := ReachedBy (fun _ _ => True) s

/-- A hint may be given only to a non-empty container (finding M5). -/
def HintOk (h : At) (s : St α) : Prop := h = none ∨ contents s ≠ []

/-- The same call without its hint. -/
def Call.plain : Call α → Call α
  | .set _ pos ty x => .set none pos ty x
  | .setRange _ pos ty vs => .setRange none pos ty vs
  | .insert _ pos ty vs => .insert none pos ty vs
  | .insertEmpty _ pos n => .insertEmpty none pos n
  | .setEmpty _ p q => .setEmpty none p q
  | .release _ pos ty => .release none pos ty
  | .releaseRange _ p q => .releaseRange none p q
  | c => c

/-- How often the handler was told that block `i` was acquired. -/
def acquiredCount (i : Nat) (s : St α) : Nat := s.evs.count (.acq i)

/-- How often the handler was told that block `i` was released. -/
def releasedCount (i : Nat) (s : St α) : Nat := s.evs.count (.rel i)

/-- The element blocks a container holds. -/
def liveBlocks (s : St α) : List Nat := s.blocks.filterMap fun b => b.data.map EB.id

/-- A position object designates logical position `q`: it names the block and the offset of
that position, or is the end position. -/
def Designates (s : St α) (p : Nat × Nat) (q : Nat) : Prop :=
  (∃ b, s.blocks[p.1]? = some b ∧ p.2 < b.size ∧ q = b.pos + p.2) ∨ (p = (s.blocks.length, 0) ∧ q = s.cur)

/-- The block structure `check_block_integrity` 5579-5665 wants, without the last condition
(no two neighbours of one type). -/
def Tiled (s : St α) : Prop :=
  (∀ i b, s.blocks[i]? = some b →
    b.pos = ((s.blocks.take i).map Blk.size).sum ∧ 0 < b.size ∧ ∀ d, b.data = some d → d.vals.length = b.size) ∧
  s.cur = (s.blocks.map Blk.size).sum

/-- No two neighbouring empty blocks. -/
def NoEmptyPair (s : St α) : Prop :=
  ∀ i a b, s.blocks[i]? = some a → s.blocks[i + 1]? = some b → ¬ (a.ty = none ∧ b.ty = none)

/-- No two neighbouring blocks of one type. -/
def Canonical (s : St α) : Prop :=
  ∀ i a b, s.blocks[i]? = some a → s.blocks[i + 1]? = some b → a.ty ≠ b.ty

end Mdds.Mtv
