import Verif.Aos.Pair
import Verif.Mtv.PairSpec

/-!
# Histories on the two implementations of multi_type_vector

An operation is any call of the public interface that the two implementations share, reads included.
A history is a list of operations.  It is run on the structure-of-arrays model and on the
array-of-structures model, and every answer is written down: the returned value or the exception.
-/

namespace Mdds.Aos
open Mdds Mdds.Mtv

variable {α : Type}

/-- An operation on one container: a modifying call or a read. -/
inductive Op (α : Type) where
  | call (c : Call α)
  | size
  | blockSize
  | get (pos : Nat) (ty : Ty)
  | type (pos : Nat)
  | isEmpty (pos : Nat)
  | position (h : At) (pos : Nat)
  | next (p : Nat × Nat)
  | logical (p : Nat × Nat)
  | valueAt (p : Nat × Nat) (ty : Ty)

/-- What an operation returns. -/
inductive Val (α : Type) where
  | ret (r : Ret α)
  | num (n : Nat)
  | cell (v : Option α)
  | type (t : Option Ty)
  | bool (b : Bool)
  | place (p : Nat × Nat)
  | value (x : α)
  deriving DecidableEq, Repr

/-- A modifying call on the array-of-structures model; `Call.run` is the one on the
structure-of-arrays model. -/
def callRun : Call α → M α (Ret α)
  | .set h pos ty x => do let i ← Aos.set h pos ty x; M.pure (.iter i)
  | .setRange h pos ty vs => do let i ← Aos.setRange h pos ty vs; M.pure (.iter i)
  | .insert h pos ty vs => do let i ← Aos.insert h pos ty vs; M.pure (.iter i)
  | .insertEmpty h pos n => do let i ← Aos.insertEmpty h pos n; M.pure (.iter i)
  | .setEmpty h p q => do let i ← Aos.setEmpty h p q; M.pure (.iter i)
  | .erase p q => do Aos.erase p q; M.pure .unit
  | .pushBack ty x => do let i ← Aos.pushBack ty x; M.pure (.iter i)
  | .pushBackEmpty => do let i ← Aos.pushBackEmpty; M.pure (.iter i)
  | .resize n => do Aos.resize n; M.pure .unit
  | .clear => do Aos.clear; M.pure .unit
  | .release h pos ty => do let r ← Aos.release h pos ty; M.pure (.val r.1 r.2)
  | .releaseRange h p q => do let i ← Aos.releaseRange h p q; M.pure (.iter i)
  | .releaseAll => do Aos.releaseAll; M.pure .unit

/-- A constructor on the array-of-structures model. -/
def ctorRun : Ctor α → Outcome (St α)
  | .default => .ok Aos.mk0
  | .sized n => .ok (Aos.mkSize n)
  | .range n ty vs => Aos.mkRange n ty vs

/-- An operation on the structure-of-arrays model. -/
def Op.soa : Op α → M α (Val α)
  | .call c => do let r ← c.run; M.pure (.ret r)
  | .size => do let n ← Mtv.size; M.pure (.num n)
  | .blockSize => do let n ← nBlocks; M.pure (.num n)
  | .get pos ty => do let v ← Mtv.get pos ty; M.pure (.cell v)
  | .type pos => do let t ← Mtv.getType pos; M.pure (.type t)
  | .isEmpty pos => do let b ← Mtv.isEmpty pos; M.pure (.bool b)
  | .position h pos => do let p ← Mtv.position h pos; M.pure (.place p)
  | .next p => do let q ← Mtv.nextPosition p; M.pure (.place q)
  | .logical p => do let n ← Mtv.logicalPosition p; M.pure (.num n)
  | .valueAt p ty => do let x ← Mtv.getAt p ty; M.pure (.value x)

/-- An operation on the array-of-structures model (`size()` and `block_size()` are the same line in
both). -/
def Op.aos : Op α → M α (Val α)
  | .call c => do let r ← callRun c; M.pure (.ret r)
  | .size => do let n ← curSize; M.pure (.num n)
  | .blockSize => do let n ← nBlocks; M.pure (.num n)
  | .get pos ty => do let v ← Aos.get pos ty; M.pure (.cell v)
  | .type pos => do let t ← Aos.getType pos; M.pure (.type t)
  | .isEmpty pos => do let b ← Aos.isEmpty pos; M.pure (.bool b)
  | .position h pos => do let p ← Aos.position h pos; M.pure (.place p)
  | .next p => do let q ← Aos.nextPosition p; M.pure (.place q)
  | .logical p => do let n ← Aos.logicalPosition p; M.pure (.num n)
  | .valueAt p ty => do let x ← Aos.getAt p ty; M.pure (.value x)

/-- What the caller of one operation sees. -/
inductive Answer (α : Type) where
  | value (v : Val α)
  | threw (e : Err)
  deriving DecidableEq, Repr

/-- A history: the answers, and the state at the end (`none` when an operation has undefined
behaviour; nothing is recorded from there on).  Exceptions are caught and the history goes on. -/
def history (step : Op α → M α (Val α)) : List (Op α) → St α → List (Answer α) × Option (St α)
  | [], s => ([], some s)
  | o :: os, s =>
    match step o s with
    | .ok (v, s') => (.value v :: (history step os s').1, (history step os s').2)
    | .err e s' => (.threw e :: (history step os s').1, (history step os s').2)
    | .ub => ([], none)

/-- An operation of a history over two containers. -/
inductive Op2 (α : Type) where
  | onA (o : Op α)
  | onB (o : Op α)
  | transferAB (h : At) (first last dest : Nat)
  | transferBA (h : At) (first last dest : Nat)
  | swapAB (first last dest : Nat)
  | swapBA (first last dest : Nat)
  | swapAll

/-- An operation on two containers of the structure-of-arrays model. -/
def Op2.soa : Op2 α → M2 α (Val α)
  | .onA o => onSrc o.soa
  | .onB o => onDst o.soa
  | .transferAB h a e d => do let i ← Mtv.transfer false h a e d; M2.pure (.ret (.iter i))
  | .transferBA h a e d => flipM (do let i ← Mtv.transfer false h a e d; M2.pure (.ret (.iter i)))
  | .swapAB a e d => do Mtv.swapRange a e d; M2.pure (.ret .unit)
  | .swapBA a e d => flipM (do Mtv.swapRange a e d; M2.pure (.ret .unit))
  | .swapAll => do Mtv.swapAll; M2.pure (.ret .unit)

/-- An operation on two containers of the array-of-structures model. -/
def Op2.aos : Op2 α → M2 α (Val α)
  | .onA o => onSrc o.aos
  | .onB o => onDst o.aos
  | .transferAB h a e d => do let i ← Aos.transfer h a e d; M2.pure (.ret (.iter i))
  | .transferBA h a e d => flipM (do let i ← Aos.transfer h a e d; M2.pure (.ret (.iter i)))
  | .swapAB a e d => do Aos.swapRange a e d; M2.pure (.ret .unit)
  | .swapBA a e d => flipM (do Aos.swapRange a e d; M2.pure (.ret .unit))
  | .swapAll => do Aos.swapAll; M2.pure (.ret .unit)

/-- A history over two containers. -/
def history2 (step : Op2 α → M2 α (Val α)) : List (Op2 α) → St α → St α → List (Answer α) × Option (St α × St α)
  | [], s, t => ([], some (s, t))
  | o :: os, s, t =>
    match step o s t with
    | .ok v s' t' => (.value v :: (history2 step os s' t').1, (history2 step os s' t').2)
    | .err e s' t' => (.threw e :: (history2 step os s' t').1, (history2 step os s' t').2)
    | .ub => ([], none)

/-- An event is an acquisition (`true`) or a release (`false`). -/
def kind : Ev → Bool
  | .acq _ => true
  | .rel _ => false

/-- Two containers that nobody can tell apart, except by the block named in an event: the same blocks
(positions, sizes, element types, values), size, destroyed values, number of blocks created, and the
same sequence of acquisitions and releases. -/
def Alike (s t : St α) : Prop :=
  s.blocks = t.blocks ∧ s.cur = t.cur ∧ s.freed = t.freed ∧ s.next = t.next ∧ s.evs.map kind = t.evs.map kind

/-- The call makes the structure-of-arrays implementation report the wrong block as acquired (finding
M1): values are inserted at the first position of a block that holds elements of another type and does
not follow a block of their type. -/
def Misreports (s : St α) : Call α → Prop
  | .insert _ pos ty vs => vs ≠ [] ∧ ∃ i b d, s.blocks[i]? = some b ∧ b.pos = pos ∧ b.data = some d ∧ d.ty ≠ ty ∧
      ∀ j p e, i = j + 1 → s.blocks[j]? = some p → p.data = some e → e.ty ≠ ty
  | _ => False

/-- No call of the history, run on the structure-of-arrays model, misreports. -/
def Truthful : List (Op α) → St α → Prop
  | [], _ => True
  | o :: os, s => (∀ c, o = .call c → ¬ Misreports s c) ∧
    match o.soa s with
    | .ok (_, s') => Truthful os s'
    | .err _ s' => Truthful os s'
    | .ub => True

/-- The same for two containers. -/
def Truthful2 : List (Op2 α) → St α → St α → Prop
  | [], _, _ => True
  | o :: os, s, t => (∀ c, (o = .onA (.call c) → ¬ Misreports s c) ∧ (o = .onB (.call c) → ¬ Misreports t c)) ∧
    match o.soa s t with
    | .ok _ s' t' => Truthful2 os s' t'
    | .err _ s' t' => Truthful2 os s' t'
    | .ub => True

/-! ### Histories of modifying calls on the array-of-structures model -/

/-- A history; exceptions are caught. -/
def runAos : List (Call α) → St α → Option (St α)
  | [], s => some s
  | c :: cs, s =>
    match callRun c s with
    | .ok (_, s') => runAos cs s'
    | .err _ s' => runAos cs s'
    | .ub => none

/-- A call on two containers. -/
def call2Run : Call2 α → M2 α (Ret α)
  | .onA c => onSrc (callRun c)
  | .onB c => onDst (callRun c)
  | .transferAB h a e d => do let i ← Aos.transfer h a e d; M2.pure (.iter i)
  | .transferBA h a e d => flipM (do let i ← Aos.transfer h a e d; M2.pure (.iter i))
  | .swapAB a e d => do Aos.swapRange a e d; M2.pure .unit
  | .swapBA a e d => flipM (do Aos.swapRange a e d; M2.pure .unit)
  | .swapAll => do Aos.swapAll; M2.pure .unit

/-- A history over two containers. -/
def runAos2 : List (Call2 α) → St α → St α → Option (St α × St α)
  | [], s, t => some (s, t)
  | c :: cs, s, t =>
    match call2Run c s t with
    | .ok _ s' t' => runAos2 cs s' t'
    | .err _ s' t' => runAos2 cs s' t'
    | .ub => none

/-- Calls for which the array-of-structures implementation reports every block it creates and
destroys: all but a range `set` of another type that begins and is followed by cells of one and the
same type (`set_cells_to_single_block` replaces the block object without a notification, as in the
other implementation). -/
def Reports (L : List (Cell α)) : Call α → Prop
  | .setRange _ pos ty vs => ¬ ∃ t, t ≠ ty ∧ typeAt L pos = some t ∧ typeAt L (pos + vs.length) = some t
  | _ => True

/-- States the array-of-structures implementation reaches from a constructor by a history of calls
with defined behaviour that all satisfy `P`. -/
def AosReachedBy (P : List (Cell α) → Call α → Prop) (s : St α) : Prop :=
  ∃ (k : Ctor α) (s₀ : St α) (cs : List (Call α)), ctorRun k = .ok s₀ ∧ Along Call.Defined (contents s₀) cs ∧
    Along P (contents s₀) cs ∧ runAos cs s₀ = some s

/-- The same for two containers. -/
def AosReachedBy2 (P : Pair α → Call2 α → Prop) (s t : St α) : Prop :=
  ∃ (k l : Ctor α) (s₀ t₀ : St α) (cs : List (Call2 α)), ctorRun k = .ok s₀ ∧ ctorRun l = .ok t₀ ∧
    Along2 Call2.Defined (contents2 s₀ t₀) cs ∧ Along2 P (contents2 s₀ t₀) cs ∧ runAos2 cs s₀ t₀ = some (s, t)

end Mdds.Aos
