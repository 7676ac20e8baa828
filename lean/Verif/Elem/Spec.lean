import Verif.Elem.Model

/-!
# Element blocks of multi_type_vector, specification

A block is a list of cells.  Objects are a finite map from addresses to values.  Every call is one list operation; it
destroys the objects that it says and no others.
-/
namespace Mdds.Elem
open Mdds

variable {V : Type}

structure SBlk (V : Type) where
  cls : Nat
  cells : List (Cell V)
  deriving DecidableEq, Repr

structure Spec (V : Type) where
  blks : Nat → Option (SBlk V)
  objs : Nat → Option V
  nextB : Nat
  nextO : Nat

def Spec.empty : Spec V := ⟨fun _ => none, fun _ => none, 0, 0⟩

/-- `n` elements from `p`. -/
def cut (l : List α) (p n : Nat) : List α := (l.drop p).take n

/-- `l` with the elements from `p` replaced by `r`. -/
def over (l : List α) (p : Nat) (r : List α) : List α := l.take p ++ r ++ l.drop (p + r.length)

def Spec.cells (s : Spec V) (b : Nat) : List (Cell V) := ((s.blks b).map (·.cells)).getD []

def Spec.set (s : Spec V) (b : Nat) (l : List (Cell V)) : Spec V :=
  { s with blks := fun i => if i = b then (s.blks b).map fun x => ⟨x.cls, l⟩ else s.blks i }

def Spec.add (s : Spec V) (c : Nat) (l : List (Cell V)) : Spec V :=
  { s with blks := fun i => if i = s.nextB then some ⟨c, l⟩ else s.blks i, nextB := s.nextB + 1 }

/-- The values of the objects behind a list of cells. -/
def valsOf (objs : Nat → Option V) (l : List (Cell V)) : List V :=
  l.filterMap fun c => match c with | .ptr (some o) => objs o | _ => none

def Spec.vals (s : Spec V) (l : List (Cell V)) : List V := valsOf s.objs l

/-- New objects with the values `vs`, from address `n` on. -/
def allocObjs (objs : Nat → Option V) (n : Nat) (vs : List V) : Nat → Option V :=
  fun o => if n ≤ o ∧ o < n + vs.length then vs[o - n]? else objs o

def Spec.alloc (s : Spec V) (vs : List V) : Spec V :=
  { s with objs := allocObjs s.objs s.nextO vs, nextO := s.nextO + vs.length }

/-- Pointers to `k` objects from `n`. -/
def ptrs (n k : Nat) : List (Cell V) := (List.range k).map fun i => .ptr (some (n + i))

/-- Some cell points to `o`. -/
def pointsTo (l : List (Cell V)) (o : Nat) : Bool := l.any fun c => match c with | .ptr (some a) => a == o | _ => false

/-- The objects behind the cells are destroyed. -/
def Spec.destroy (s : Spec V) (l : List (Cell V)) : Spec V :=
  { s with objs := fun o => if pointsTo l o then none else s.objs o }

/-- What `clone_value` makes of each value; it may look at the values before. -/
def clones (f : List V → V → Option V) (vs : List V) : List (Option V) :=
  (List.range vs.length).map fun i => vs[i]?.bind (f (vs.take i))

/-- The class of a block. -/
def Spec.cls (cfg : Cfg V) (s : Spec V) (b : Nat) : Option (Class V) := (s.blks b).bind fun x => cfg.classes[x.cls]?

/-- A new block with copies of the objects of `b`. -/
def Spec.dup (s : Spec V) (x : SBlk V) (vs : List V) : Spec V × Ans V :=
  ((s.alloc vs).add x.cls (ptrs s.nextO vs.length), .num s.nextB)

def sCopy (s : Spec V) (k : Class V) (x : SBlk V) (fail : Option Nat) : Spec V × Ans V :=
  match k.kind with
  | .noncopyable _ => (s, .threw .elementBlock)
  | .plain => if (fail.map fun n => decide (n < x.cells.length)) = some true then (s, .threwUser)
    else (s.add x.cls x.cells, .num s.nextB)
  | .managed => if (fail.map fun n => decide (n < x.cells.length)) = some true then (s, .threwUser)
    else s.dup x (s.vals x.cells)

/-- If `clone_value` throws nothing is left; the addresses of the clones made before are not used again. -/
def sClone (s : Spec V) (k : Class V) (x : SBlk V) (fail : Option Nat) : Spec V × Ans V :=
  match k.kind with
  | .noncopyable none => (s, .threw .elementBlock)
  | .noncopyable (some f) =>
    let r := clones f (s.vals x.cells)
    if r.all Option.isSome then s.dup x (r.filterMap id)
    else ({ s with nextO := s.nextO + (r.takeWhile Option.isSome).length }, .threwUser)
  | _ => sCopy s k x fail

/-- The state and the answer after a call.  Calls that are not `Legal` are of no interest. -/
def sStep [DecidableEq V] (cfg : Cfg V) (s : Spec V) : Cmd V → Spec V × Ans V
  | .newObj v => (s.alloc [v], .num s.nextO)
  | .create ty n => match cfg.find ty with
    | none => (s, .threw .general)
    | some c => match cfg.classes[c]? with
      | none => (s, .unit)
      | some k => (s.add c (List.replicate n (cfg.dflt k.kind)), .num s.nextB)
  | .copy b fail => match s.blks b, s.cls cfg b with
    | some x, some k => sCopy s k x fail
    | _, _ => (s, .unit)
  | .clone b fail => match s.blks b, s.cls cfg b with
    | some x, some k => sClone s k x fail
    | _, _ => (s, .unit)
  | .isCopyable b => match s.cls cfg b with
    | some ⟨_, .noncopyable _, _⟩ => (s, .bool false)
    | _ => (s, .bool true)
  | .delete none => (s, .unit)
  | .delete (some b) =>
    ({ s.destroy (s.cells b) with blks := fun i => if i = b then none else s.blks i }, .unit)
  | .resize b n => match s.cls cfg b with
    | some k => (s.set b ((s.cells b).take n ++ List.replicate (n - (s.cells b).length) (cfg.dflt k.kind)), .unit)
    | none => (s, .unit)
  | .erase b pos => (s.set b ((s.cells b).eraseIdx pos), .unit)
  | .eraseN b pos n => (s.set b ((s.cells b).take pos ++ (s.cells b).drop (pos + n)), .unit)
  | .appendBlock d b => (s.set d (s.cells d ++ s.cells b), .unit)
  | .appendFrom d b pos len => (s.set d (s.cells d ++ cut (s.cells b) pos len), .unit)
  | .assignFrom d b pos len => (s.set d (cut (s.cells b) pos len), .unit)
  | .prependFrom d b pos len => (s.set d (cut (s.cells b) pos len ++ s.cells d), .unit)
  | .swapValues b1 b2 p1 p2 len =>
    let s' := s.set b1 (over (s.cells b1) p1 (cut (s.cells b2) p2 len))
    (s'.set b2 (over (s'.cells b2) p2 (cut (s.cells b1) p1 len)), .unit)
  | .equal l r => match s.blks l, s.blks r with
    | some x, some y =>
      if x.cls ≠ y.cls then (s, .bool false)
      else match s.cls cfg l with
        | some ⟨_, .noncopyable _, _⟩ => (s, .bool (decide (s.vals x.cells = s.vals y.cells)))
        | _ => (s, .bool (decide (x.cells = y.cells)))
    | _, _ => (s, .unit)
  | .overwrite b pos len => match s.cls cfg b with
    | some ⟨_, .plain, _⟩ => (s, .unit)
    | _ => (s.destroy (cut (s.cells b) pos len), .unit)
  | .shrink _ => (s, .unit)
  | .size b => (s, .num (s.cells b).length)
  | .createWith c n x => match cfg.classes[c]? with
    | some ⟨_, .plain, _⟩ => (s.add c (List.replicate n x), .num s.nextB)
    | _ => if n > 1 then (s, .threw .general) else (s.add c (List.replicate n x), .num s.nextB)
  | .createFrom c xs => (s.add c xs, .num s.nextB)
  | .at_ _ b pos => match (s.cells b)[pos]? with
    | some x => (s, .cell x)
    | none => (s, .threw .outOfRange)
  | .get _ b pos => match (s.cells b)[pos]? with
    | some x => (s, .cell x)
    | none => (s, .unit)
  | .set _ b pos x => (s.set b ((s.cells b).set pos x), .unit)
  | .push _ b x => (s.set b (s.cells b ++ [x]), .unit)
  | .prepend _ b x => (s.set b (x :: s.cells b), .unit)
  | .setMany _ b pos xs => (s.set b (over (s.cells b) pos xs), .unit)
  | .pushMany _ b xs => (s.set b (s.cells b ++ xs), .unit)
  | .prependMany _ b xs => (s.set b (xs ++ s.cells b), .unit)
  | .assignMany _ b xs => (s.set b xs, .unit)
  | .insertMany _ b pos xs => (s.set b ((s.cells b).take pos ++ xs ++ (s.cells b).drop pos), .unit)
  | .values _ b => (s, .cells (s.cells b))
  | .valuesRev _ b => (s, .cells (s.cells b).reverse)

/-- All cells point to objects. -/
def Spec.Live (s : Spec V) (l : List (Cell V)) : Prop := ∀ c ∈ l, ∃ o, c = .ptr (some o) ∧ (s.objs o).isSome

/-- Cells that may be deleted: each is null or points to an object, and no two to the same. -/
def Spec.Owned (s : Spec V) (l : List (Cell V)) : Prop :=
  (∀ c ∈ l, c = .ptr none ∨ ∃ o, c = .ptr (some o) ∧ (s.objs o).isSome) ∧
    (l.filter fun c => match c with | .ptr (some _) => true | _ => false).Nodup

/-- The block `b` is of class `c`, which stores such cells. -/
def Spec.Is (cfg : Cfg V) (s : Spec V) (c b : Nat) (xs : List (Cell V)) : Prop :=
  (s.blks b).map (·.cls) = some c ∧ ∃ k, cfg.classes[c]? = some k ∧ xs.all k.kind.fits

/-- Two blocks of one class. -/
def Spec.Alike (s : Spec V) (a b : Nat) : Prop := ∃ x y, s.blks a = some x ∧ s.blks b = some y ∧ x.cls = y.cls

/-- A copy that throws: of a plain block only at an element of the block. -/
def copyLegal (s : Spec V) (k : Class V) (l : List (Cell V)) (fail : Option Nat) : Prop :=
  match k.kind with
  | .plain => ∀ n, fail = some n → n < l.length
  | .managed => s.Live l ∧ ∀ n, fail = some n → l.length ≤ n
  | .noncopyable _ => True

/-- Calls the property speaks of. -/
def Legal (cfg : Cfg V) (s : Spec V) : Cmd V → Prop
  | .newObj _ | .create _ _ | .delete none => True
  | .copy b fail => ∃ x k, s.blks b = some x ∧ cfg.classes[x.cls]? = some k ∧ copyLegal s k x.cells fail
  | .clone b fail => ∃ x k, s.blks b = some x ∧ cfg.classes[x.cls]? = some k ∧ copyLegal s k x.cells fail ∧
      ∀ f, k.kind = .noncopyable f → s.Live x.cells
  | .delete (some b) => ∃ x k, s.blks b = some x ∧ cfg.classes[x.cls]? = some k ∧
      (k.kind = .plain ∨ s.Owned x.cells)
  | .isCopyable b | .resize b _ | .shrink b | .size b => (s.blks b).isSome
  | .erase b pos => (s.blks b).isSome ∧ pos < (s.cells b).length
  | .eraseN b pos n => (s.blks b).isSome ∧ pos + n ≤ (s.cells b).length
  | .appendBlock d b => d ≠ b ∧ s.Alike d b
  | .appendFrom d b pos len | .assignFrom d b pos len | .prependFrom d b pos len =>
    d ≠ b ∧ s.Alike d b ∧ pos + len ≤ (s.cells b).length
  | .swapValues b1 b2 p1 p2 len => s.Alike b1 b2 ∧ p1 + len ≤ (s.cells b1).length ∧ p2 + len ≤ (s.cells b2).length ∧
      (b1 = b2 → p1 + len ≤ p2 ∨ p2 + len ≤ p1)
  | .equal l r => ∃ x y, s.blks l = some x ∧ s.blks r = some y ∧
      ∀ k f, cfg.classes[x.cls]? = some k → k.kind = .noncopyable f → s.Live x.cells ∧ s.Live y.cells
  | .overwrite b pos len => ∃ x k, s.blks b = some x ∧ cfg.classes[x.cls]? = some k ∧
      (k.kind = .plain ∨ pos + len ≤ x.cells.length ∧ s.Owned (cut x.cells pos len))
  | .createWith c _ x => ∃ k, cfg.classes[c]? = some k ∧ k.kind.fits x
  | .createFrom c xs => ∃ k, cfg.classes[c]? = some k ∧ xs.all k.kind.fits
  | .at_ c b _ | .values c b | .valuesRev c b => s.Is cfg c b []
  | .get c b pos => s.Is cfg c b [] ∧ pos < (s.cells b).length
  | .set c b pos x => s.Is cfg c b [x] ∧ pos < (s.cells b).length
  | .push c b x | .prepend c b x => s.Is cfg c b [x]
  | .setMany c b pos xs => s.Is cfg c b xs ∧ pos + xs.length ≤ (s.cells b).length
  | .pushMany c b xs | .prependMany c b xs | .assignMany c b xs => s.Is cfg c b xs
  | .insertMany c b pos xs => s.Is cfg c b xs ∧ pos ≤ (s.cells b).length

/-- Every call of the program is legal. -/
def LegalRun [DecidableEq V] (cfg : Cfg V) : Spec V → List (Cmd V) → Prop
  | _, [] => True
  | s, c :: cs => Legal cfg s c ∧ LegalRun cfg (sStep cfg s c).1 cs

/-- State and answers after a program. -/
def sRun [DecidableEq V] (cfg : Cfg V) : Spec V → List (Cmd V) → Spec V × List (Ans V)
  | s, [] => (s, [])
  | s, c :: cs => ((sRun cfg (sStep cfg s c).1 cs).1, (sStep cfg s c).2 :: (sRun cfg (sStep cfg s c).1 cs).2)

/-- No two registered classes have the same id. -/
def Cfg.Distinct (cfg : Cfg V) : Prop := (cfg.classes.map (·.id)).Nodup

end Mdds.Elem
