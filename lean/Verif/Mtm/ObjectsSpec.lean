import Verif.Mtm.Objects
/-!
What programs with several matrices should do (C79): every matrix is a table of its own.  A matrix whose contents were moved out has
no table until it gets new contents.
-/
namespace Mdds.Mtm

variable {D I S : Type} [DecidableEq D] [DecidableEq I] [DecidableEq S]

/-- A matrix in the specification: its table, or nothing after its contents were moved out. -/
inductive Slot (D I S : Type) where
  | live (t : Table D I S)
  | moved

abbrev Tables (D I S : Type) := List (Option (Slot D I S))

/-- `t'` is what the call makes of a matrix that shows `t` and is used alone (C41-C43 say what that is), also when the call throws. -/
def Alone (t : Table D I S) (c : MCall D I S) (t' : Table D I S) : Prop :=
  ∃ m m', Reach m ∧ Shows m t ∧ c.run m = some m' ∧ Shows m' t'

/-- Giving a moved-from matrix new contents: the calls that do not look at the old ones. -/
def MCall.renew : MCall D I S → Option (Table D I S)
  | .clear => some (.const 0 0 none)
  | .resize r c => some (if r = 0 ∨ c = 0 then .const 0 0 none else .const r c none)
  | .resizeFill r c v => some (if r = 0 ∨ c = 0 then .const 0 0 none else .const r c (some v))
  | _ => none

/-- `w'` is a wanted outcome of the step in `w`.  A step that is not legal in `w` has none. -/
inductive Does (w : Tables D I S) : Step D I S → Tables D I S → Prop
  | default : Does w .default (w ++ [some (.live (.const 0 0 none))])
  | sized (r c : Nat) : Does w (.sized r c) (w ++ [some (.live (.const r c none))])
  | fill (r c : Nat) (v : Val D I S) : Does w (.fill r c v) (w ++ [some (.live (.const r c (some v)))])
  | arr (r c : Nat) (a : Arr D I S) : r * c = 0 ∨ r * c = a.vals.length →
      Does w (.arr r c a) (w ++ [some (.live ⟨r, c, fun i j => a.vals[r * j + i]?⟩)])
  | arrThrows (r c : Nat) (a : Arr D I S) : ¬ (r * c = 0 ∨ r * c = a.vals.length) → Does w (.arr r c a) w
  | copyCtor {i : Nat} {t : Table D I S} : w[i]? = some (some (.live t)) → Does w (.copyCtor i) (w ++ [some (.live t)])
  | moveCtor {i : Nat} {t : Table D I S} : w[i]? = some (some (.live t)) →
      Does w (.moveCtor i) (w.set i (some .moved) ++ [some (.live t)])
  | assign {i j : Nat} {x : Slot D I S} {t : Table D I S} : w[i]? = some (some x) → w[j]? = some (some (.live t)) →
      Does w (.assign i j) (w.set i (some (.live t)))
  | moveAssign {i j : Nat} {x : Slot D I S} {t : Table D I S} : w[i]? = some (some x) → w[j]? = some (some (.live t)) → i ≠ j →
      Does w (.moveAssign i j) ((w.set j (some .moved)).set i (some (.live t)))
  | moveSelf {i : Nat} {t : Table D I S} : w[i]? = some (some (.live t)) → Does w (.moveAssign i i) w
  | swap {i j : Nat} {x y : Slot D I S} : w[i]? = some (some x) → w[j]? = some (some y) →
      Does w (.swap i j) ((w.set i (some y)).set j (some x))
  | copy {i j : Nat} {u t : Table D I S} : w[i]? = some (some (.live u)) → w[j]? = some (some (.live t)) → i ≠ j →
      (∀ r c, r < u.rows → c < u.cols → r < t.rows → c < t.cols → ¬ (t.at_ r c).isInt) →
      Does w (.copy i j) (w.set i (some (.live (u.overlay t))))
  | copyThrows {i j : Nat} {u t v : Table D I S} : w[i]? = some (some (.live u)) → w[j]? = some (some (.live t)) → i ≠ j →
      (∃ r c, r < u.rows ∧ c < u.cols ∧ r < t.rows ∧ c < t.cols ∧ (t.at_ r c).isInt) → Mixed u t v →
      Does w (.copy i j) (w.set i (some (.live v)))
  | copySelf {i : Nat} {t : Table D I S} : w[i]? = some (some (.live t)) → Does w (.copy i i) w
  | call {i : Nat} {c : MCall D I S} {t t' : Table D I S} : w[i]? = some (some (.live t)) → Alone t c t' →
      Does w (.call i c) (w.set i (some (.live t')))
  | renew {i : Nat} {c : MCall D I S} {t : Table D I S} : w[i]? = some (some .moved) → c.renew = some t →
      Does w (.call i c) (w.set i (some (.live t)))
  | destroy {i : Nat} {x : Slot D I S} : w[i]? = some (some x) → Does w (.destroy i) (w.set i none)

/-- Outcomes of a program. -/
inductive DoesAll : Tables D I S → List (Step D I S) → Tables D I S → Prop
  | nil (w : Tables D I S) : DoesAll w [] w
  | cons {w w' w'' : Tables D I S} {s : Step D I S} {ss : List (Step D I S)} : Does w s w' → DoesAll w' ss w'' → DoesAll w (s :: ss) w''

/-- The matrix has contents. -/
def Slot.full : Slot D I S → Bool
  | .live _ => true
  | .moved => false

/-- Which matrices exist, and which of them have contents. -/
def shape (w : Tables D I S) : List (Option Bool) := w.map (Option.map Slot.full)

/-- The matrix exists and has contents. -/
def has (h : List (Option Bool)) (i : Nat) : Bool := h[i]? = some (some true)

/-- The matrix exists. -/
def exists_ (h : List (Option Bool)) (i : Nat) : Bool := (h[i]?.bind id).isSome

/-- The steps a program may take: on matrices that exist, and, where the old contents matter, have contents. -/
def legal (h : List (Option Bool)) : Step D I S → Bool
  | .default | .sized _ _ | .fill _ _ _ | .arr _ _ _ => true
  | .copyCtor i | .moveCtor i => has h i
  | .assign i j | .moveAssign i j => exists_ h i && has h j
  | .swap i j => exists_ h i && exists_ h j
  | .copy i j => has h i && has h j
  | .call i c => has h i || (exists_ h i && c.renew.isSome)
  | .destroy i => exists_ h i

/-- Which matrices exist after the step. -/
def after (h : List (Option Bool)) : Step D I S → List (Option Bool)
  | .default | .sized _ _ | .fill _ _ _ => h ++ [some true]
  | .arr r c a => if r * c = 0 ∨ r * c = a.vals.length then h ++ [some true] else h
  | .copyCtor _ => h ++ [some true]
  | .moveCtor i => h.set i (some false) ++ [some true]
  | .assign i _ => h.set i (some true)
  | .moveAssign i j => (h.set j (some false)).set i (some true)
  | .swap i j => (h.set i (h[j]?.bind id)).set j (h[i]?.bind id)
  | .copy _ _ => h
  | .call i _ => h.set i (some true)
  | .destroy i => h.set i none

/-- A legal program. -/
def legalAll : List (Option Bool) → List (Step D I S) → Bool
  | _, [] => true
  | h, s :: ss => legal h s && legalAll (after h s) ss

end Mdds.Mtm
