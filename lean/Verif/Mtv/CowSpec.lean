import Verif.Mtv.Cow
/-!
# multi_type_vector: specification of copies and moves

Any number of containers; each is a value of its own: a sequence of cells that only calls on
this container change.  Nothing is shared.  The only trace of copy-on-write is a mark that says
whether `release` is refused.
-/

namespace Mdds.Mtv.Cow

variable {α : Type}

/-- The steps of a history.  Containers are named by the order in which they are made. -/
inductive Step (α : Type) where
  /-- one of the ordinary constructors -/
  | construct (k : Ctor α)
  /-- copy constructor -/
  | copy (i : Nat)
  /-- `clone()` -/
  | clone (i : Nat)
  /-- move constructor -/
  | move (i : Nat)
  /-- container `i` is assigned container `j` -/
  | assign (i j : Nat)
  /-- container `i` is move-assigned container `j` -/
  | moveAssign (i j : Nat)
  /-- `swap(other)` -/
  | swap (i j : Nat)
  | destroy (i : Nat)
  /-- a modifying call on container `i` -/
  | call (i : Nat) (c : Call α)
  | detach (i : Nat)
  /-- `i.transfer(first, last, j, dest)` -/
  | transfer (i j : Nat) (h : At) (first last dest : Nat)
  /-- `i.swap(first, last, j, dest)` -/
  | swapRange (i j : Nat) (first last dest : Nat)

/-- What is known of a container: it was moved from, or it shows the cells `L`; `marked` when
`release` is refused because it may share its blocks. -/
inductive Item (α : Type) where
  | moved
  | live (L : List (Cell α)) (marked : Bool)

/-- All containers; `none` for destroyed ones. -/
abbrev Items (α : Type) := List (Option (Item α))

def Items.at (S : Items α) (i : Nat) : Option (Item α) := S[i]?.join

/-- All values in the cells have types that satisfy `p`. -/
def allOf (p : Ty → Bool) (L : List (Cell α)) : Bool := (valuesOf L).all fun v => p v.1

/-- Whether a call goes on to the container after the tests of its arguments alone. -/
def touches (L : List (Cell α)) : Call α → Bool
  | .setRange _ pos _ vs => decide (vs ≠ [] ∧ pos + vs.length ≤ L.length)
  | .erase first last => decide (first ≤ last)
  | .insertEmpty _ _ n => decide (n ≠ 0)
  | _ => true

/-- The wanted state after a modifying call on a container that shows `L`, and the exception. -/
def callSpec (L : List (Cell α)) (marked : Bool) (c : Call α) : Item α × Option Err :=
  match c with
  | .clear => (.live [] false, none)
  | c =>
    if isRelease c ∧ marked then (.live L marked, some .sharedBlock)
    else
      match c.spec L with
      | some L' => (.live L' (marked && !touches L c), none)
      | none => (.live L (marked && !touches L c), some .outOfRange)

/-- The wanted state after a step, and the exception it throws. -/
def Step.spec (T : Traits) (S : Items α) : Step α → Items α × Option Err
  | .construct k =>
    match k.spec with
    | some L => (S ++ [some (.live L false)], none)
    | none => (S, some .invalidArg)
  | .copy i =>
    match S.at i with
    | some (.live L m) =>
      if allOf T.copyable L then (S.set i (some (.live L (m || T.cow))) ++ [some (.live L T.cow)], none)
      else (S, some .elementBlock)
    | _ => (S, none)
  | .clone i =>
    match S.at i with
    | some (.live L m) =>
      if allOf T.clonable L then (S.set i (some (.live L (m || T.cow))) ++ [some (.live L T.cow)], none)
      else (S, some .elementBlock)
    | _ => (S, none)
  | .move i => (S.set i (some .moved) ++ [S.at i], none)
  | .assign i j =>
    match S.at j with
    | some (.live L m) =>
      if allOf T.copyable L then
        ((S.set j (some (.live L (m || T.cow)))).set i (some (.live L T.cow)), none)
      else (S, some .elementBlock)
    | _ => (S, none)
  | .moveAssign i j => ((S.set j (some .moved)).set i (S.at j), none)
  | .swap i j => ((S.set i (S.at j)).set j (S.at i), none)
  | .destroy i => (S.set i none, none)
  | .call i c =>
    match S.at i with
    | some (.live L m) => (S.set i (some (callSpec L m c).1), (callSpec L m c).2)
    | _ => (S.set i (some (.live [] false)), none)
  | .detach i =>
    match S.at i with
    | some (.live L _) => (S.set i (some (.live L false)), none)
    | _ => (S, none)
  | .transfer i j _ first last dest =>
    if i = j then (S, some .invalidArg)
    else
      match S.at i, S.at j with
      | some (.live L _), some (.live K _) =>
        match moveCells first last dest L K with
        | some p => ((S.set i (some (.live p.1 false))).set j (some (.live p.2 false)), none)
        | none => ((S.set i (some (.live L false))).set j (some (.live K false)), some .outOfRange)
      | _, _ => (S, none)
  | .swapRange i j first last dest =>
    match S.at i, S.at j with
    | some (.live L _), some (.live K _) =>
      match exchangeCells first last dest L K with
      | some p => ((S.set i (some (.live p.1 false))).set j (some (.live p.2 false)), none)
      | none => (S, some .outOfRange)
    | _, _ => (S, none)

/-- Container `i` exists and was not moved from. -/
def Live (S : Items α) (i : Nat) : Prop := ∃ L m, S.at i = some (.live L m)

/-- Steps whose behaviour is defined.  A container that was moved from may be assigned to,
exchanged, cleared and destroyed.  With copy-on-write a container holding blocks that cannot be
cloned must not be cloned (finding M8). -/
def Step.Defined (T : Traits) (S : Items α) : Step α → Prop
  | .construct _ => True
  | .copy i | .move i | .detach i => Live S i
  | .clone i => ∃ L m, S.at i = some (.live L m) ∧ (T.cow = true → allOf T.clonable L = true)
  | .assign i j | .moveAssign i j => S.at i ≠ none ∧ Live S j
  | .swap i j => S.at i ≠ none ∧ S.at j ≠ none
  | .destroy i => S.at i ≠ none
  | .call i c => (∃ L m, S.at i = some (.live L m) ∧ c.Defined L) ∨ (S.at i = some .moved ∧ c = .clear)
  | .transfer i j h _ _ _ => ∃ L K m n, S.at i = some (.live L m) ∧ S.at j = some (.live K n) ∧ (h ≠ none → L ≠ [])
  | .swapRange i j _ _ _ => i ≠ j ∧ Live S i ∧ Live S j

/-- The step on the model. -/
def Step.run (T : Traits) : Step α → World α → Out α
  | .construct k => Cow.construct k
  | .copy i => copyCtor T i
  | .clone i => cloneCtor T i
  | .move i => moveCtor i
  | .assign i j => Cow.assign T i j
  | .moveAssign i j => Cow.moveAssign i j
  | .swap i j => swapCtrs i j
  | .destroy i => Cow.destroy i
  | .call i c => callOn T i c
  | .detach i => Cow.detach T i
  | .transfer i j h a e d => transferOn T i j h a e d
  | .swapRange i j a e d => swapOn T i j a e d

/-- A history: exceptions are caught by the caller, who goes on with the state they leave. -/
def runSteps (T : Traits) : List (Step α) → World α → Option (World α)
  | [], w => some w
  | c :: cs, w =>
    match c.run T w with
    | .ok w' => runSteps T cs w'
    | .err _ w' => runSteps T cs w'
    | .ub => none

/-- The wanted state after a history. -/
def specSteps (T : Traits) (S : Items α) (cs : List (Step α)) : Items α := cs.foldl (fun S c => (c.spec T S).1) S

/-- All steps of a history are defined. -/
def DefinedAll (T : Traits) : Items α → List (Step α) → Prop
  | _, [] => True
  | S, c :: cs => c.Defined T S ∧ DefinedAll T (c.spec T S).1 cs

/-- What container `i` shows; `none` if it does not exist or points to a block that does not. -/
def World.shown (w : World α) (i : Nat) : Option (List (Cell α)) :=
  ((w.get i).bind (load w)).map contents

/-- The worlds reached by histories of defined steps, and what the specification says of them. -/
def Reached (T : Traits) (w : World α) (S : Items α) : Prop :=
  ∃ cs : List (Step α), DefinedAll T [] cs ∧ runSteps T cs World.init = some w ∧ specSteps T [] cs = S

end Mdds.Mtv.Cow
