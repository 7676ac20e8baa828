import Verif.Mtv.Spec
import Verif.Mtv.Swap

/-!
# multi_type_vector: specification of calls on two containers

Two containers `a` and `b` of one type.  A history calls members of either one, moves elements
from one to the other or exchanges elements between them.  What a user sees is a pair of sequences.
-/

namespace Mdds.Mtv

variable {α : Type}

/-- What two containers show. -/
abbrev Pair (α : Type) := List (Cell α) × List (Cell α)

/-- A call of a history over two containers. -/
inductive Call2 (α : Type) where
  /-- a call on the first -/
  | onA (c : Call α)
  /-- a call on the second -/
  | onB (c : Call α)
  /-- `a.transfer(first, last, b, dest)` -/
  | transferAB (h : At) (first last dest : Nat)
  /-- `b.transfer(first, last, a, dest)` -/
  | transferBA (h : At) (first last dest : Nat)
  /-- `a.swap(first, last, b, dest)` -/
  | swapAB (first last dest : Nat)
  /-- `b.swap(first, last, a, dest)` -/
  | swapBA (first last dest : Nat)
  /-- `a.swap(b)` -/
  | swapAll

/-- Cells `first` to `last` of `L` move to `M`, from `dest` on, and become empty in `L`; `none`
when either range does not exist. -/
def moveCells (first last dest : Nat) (L M : List (Cell α)) : Option (Pair α) :=
  let n := last - first + 1
  if first ≤ last ∧ last < L.length ∧ dest + n ≤ M.length then
    some (L.take first ++ List.replicate n none ++ L.drop (last + 1),
      M.take dest ++ (L.drop first).take n ++ M.drop (dest + n))
  else none

/-- Cells `first` to `last` of `L` and as many cells of `M` from `dest` on change places; `none`
when either range does not exist. -/
def exchangeCells (first last dest : Nat) (L M : List (Cell α)) : Option (Pair α) :=
  let n := last - first + 1
  if first ≤ last ∧ last < L.length ∧ dest + n ≤ M.length then
    some (L.take first ++ (M.drop dest).take n ++ L.drop (last + 1),
      M.take dest ++ (L.drop first).take n ++ M.drop (dest + n))
  else none

/-- The wanted pair of sequences after a call; `none` when the call has to throw `out_of_range`. -/
def Call2.spec (p : Pair α) : Call2 α → Option (Pair α)
  | .onA c => (c.spec p.1).map fun L => (L, p.2)
  | .onB c => (c.spec p.2).map fun L => (p.1, L)
  | .transferAB _ first last dest => moveCells first last dest p.1 p.2
  | .transferBA _ first last dest => (moveCells first last dest p.2 p.1).map Prod.swap
  | .swapAB first last dest => exchangeCells first last dest p.1 p.2
  | .swapBA first last dest => (exchangeCells first last dest p.2 p.1).map Prod.swap
  | .swapAll => some p.swap

/-- A throwing call changes neither container. -/
def Call2.after (c : Call2 α) (p : Pair α) : Pair α := (c.spec p).getD p

def specRun2 (p : Pair α) (cs : List (Call2 α)) : Pair α := cs.foldl (fun p c => c.after p) p

/-- A condition on calls of one container, for the calls of a history over two. -/
def Call2.Each (P : List (Cell α) → Call α → Prop) (p : Pair α) : Call2 α → Prop
  | .onA c => P p.1 c
  | .onB c => P p.2 c
  | _ => True

/-- Calls whose behaviour is defined: as for one container; `transfer` with a hint needs a
non-empty source (finding M5). -/
def Call2.Defined (p : Pair α) : Call2 α → Prop
  | .onA c => c.Defined p.1
  | .onB c => c.Defined p.2
  | .transferAB h .. => h ≠ none → p.1 ≠ []
  | .transferBA h .. => h ≠ none → p.2 ≠ []
  | _ => True

/-- `swap` of the cells `first` to `last` of `L` destroys objects that stay stored (finding M3):
the range holds elements of one managed type, the range of `M` elements of one other type, and
there it lies between two elements of the first type. -/
def Trapped (L M : List (Cell α)) (first last dest : Nat) : Prop :=
  ∃ ty u, ty.managed = true ∧ u ≠ ty ∧ (∀ i < last - first + 1, typeAt L (first + i) = some ty) ∧
    (∀ i < last - first + 1, typeAt M (dest + i) = some u) ∧
    0 < dest ∧ typeAt M (dest - 1) = some ty ∧ typeAt M (dest + (last - first + 1)) = some ty

/-- Calls that account for every object: as for one container, and no range `swap` as described
by `Trapped`. -/
def Call2.NoLeak (p : Pair α) : Call2 α → Prop
  | .onA c => c.NoLeak p.1
  | .onB c => c.NoLeak p.2
  | .swapAB first last dest => ¬ Trapped p.1 p.2 first last dest
  | .swapBA first last dest => ¬ Trapped p.2 p.1 first last dest
  | _ => True

/-- A property of the calls of a history, each with the pair it is made on. -/
def Along2 (P : Pair α → Call2 α → Prop) : Pair α → List (Call2 α) → Prop
  | _, [] => True
  | p, c :: cs => P p c ∧ Along2 P (c.after p) cs

/-- The values a successful call hands to the containers. -/
def Call2.given : Call2 α → List (Ty × α)
  | .onA c | .onB c => c.given
  | _ => []

/-- The values a successful call gives back to the caller. -/
def Call2.handedOut (p : Pair α) : Call2 α → List (Ty × α)
  | .onA c => c.handedOut p.1
  | .onB c => c.handedOut p.2
  | _ => []

/-- All values given to the containers along a history (by calls that do not throw). -/
def givenBy2 : Pair α → List (Call2 α) → List (Ty × α)
  | _, [] => []
  | p, c :: cs => (if (c.spec p).isSome then c.given else []) ++ givenBy2 (c.after p) cs

/-- All values handed back along a history. -/
def handedBy2 : Pair α → List (Call2 α) → List (Ty × α)
  | _, [] => []
  | p, c :: cs => (if (c.spec p).isSome then c.handedOut p else []) ++ handedBy2 (c.after p) cs

/-- The call on the model. -/
def Call2.run : Call2 α → M2 α (Ret α)
  | .onA c => onSrc c.run
  | .onB c => onDst c.run
  | .transferAB h a e d => do let i ← transfer false h a e d; M2.pure (.iter i)
  | .transferBA h a e d => flipM (do let i ← transfer false h a e d; M2.pure (.iter i))
  | .swapAB a e d => do swapRange a e d; M2.pure .unit
  | .swapBA a e d => flipM (do swapRange a e d; M2.pure .unit)
  | .swapAll => do Mtv.swapAll; M2.pure .unit

/-- A history: exceptions are caught by the caller, who goes on with the states they leave. -/
def runAll2 : List (Call2 α) → St α → St α → Option (St α × St α)
  | [], s, t => some (s, t)
  | c :: cs, s, t =>
    match c.run s t with
    | .ok _ s' t' => runAll2 cs s' t'
    | .err _ s' t' => runAll2 cs s' t'
    | .ub => none

/-- What two containers show. -/
def contents2 (s t : St α) : Pair α := (contents s, contents t)

/-- Pairs of states reached from two constructors by a history of calls with defined behaviour
that all satisfy `P`. -/
def ReachedBy2 (P : Pair α → Call2 α → Prop) (s t : St α) : Prop :=
  ∃ (k l : Ctor α) (s₀ t₀ : St α) (cs : List (Call2 α)), k.run = .ok s₀ ∧ l.run = .ok t₀ ∧
    Along2 Call2.Defined (contents2 s₀ t₀) cs ∧ Along2 P (contents2 s₀ t₀) cs ∧ runAll2 cs s₀ t₀ = some (s, t)

/-- Pairs of states reached by any history of calls with defined behaviour. -/
def Reachable2 (s t : St α) : Prop := ReachedBy2 (fun _ _ => True) s t

end Mdds.Mtv
