import Verif.Aos.Same
import Verif.Aos.Spec
import Mathlib.Tactic.CasesM

/-!
# The container does not look at its own event log

The calls of the structure-of-arrays model are run twice, in states that differ in the event log only.
They take the same course, return the same results and leave states that again differ in the event log
only; the two logs stay equal up to the block named by an event.
-/

namespace Mdds.Aos
open Mdds Mdds.Mtv

variable {α β γ : Type}

theorem Alike.refl (s : St α) : Alike s s := ⟨rfl, rfl, rfl, rfl, rfl⟩

/-- Equal results of two calls, up to the blocks named in the event log. -/
def AlikeRes : Res α β → Res α β → Prop
  | .ok p, .ok q => p.1 = q.1 ∧ Alike p.2 q.2
  | .err e s, .err e' t => e = e' ∧ Alike s t
  | .ub, .ub => True
  | _, _ => False

/-- Two member functions do the same in alike states. -/
def Agree (x y : M α β) : Prop := ∀ s t, Alike s t → AlikeRes (x s) (y t)

/-- A member function does the same in alike states. -/
structure Blind (x : M α β) : Prop where
  agree : Agree x x

theorem Agree.bind {x y : M α β} {f g : β → M α γ} (h : Agree x y) (k : ∀ b, Agree (f b) (g b)) :
    Agree (x >>= f) (y >>= g) := by
  intro s t hs
  have h1 := h s t hs
  show AlikeRes ((x s).bind _) ((y t).bind _)
  cases hx : x s <;> cases hy : y t <;> rw [hx, hy] at h1 <;> simp only [AlikeRes] at h1 <;> simp only [Res.bind]
  · obtain ⟨h2, h3⟩ := h1
    rw [h2]
    exact k _ _ _ h3
  · exact h1
  · trivial

theorem Blind.bind {x : M α β} {f : β → M α γ} (h : Blind x) (k : ∀ b, Blind (f b)) : Blind (x >>= f) :=
  ⟨Agree.bind h.agree fun b => (k b).agree⟩

theorem pure_blind (b : β) : Blind (M.pure b : M α β) := ⟨fun _ _ h => ⟨rfl, h⟩⟩
theorem pure'_blind (b : β) : Blind (Pure.pure b : M α β) := ⟨fun _ _ h => ⟨rfl, h⟩⟩
theorem throw_blind (e : Err) : Blind (throw_ e : M α β) := ⟨fun _ _ h => ⟨rfl, h⟩⟩
theorem ub_blind : Blind (ub_ : M α β) := ⟨fun _ _ _ => trivial⟩

theorem Alike.elim {s t : St α} (h : Alike s t) :
    ∃ b c f n e e', s = ⟨b, c, f, e, n⟩ ∧ t = ⟨b, c, f, e', n⟩ ∧ e.map kind = e'.map kind := by
  obtain ⟨b, c, f, e, n⟩ := s
  obtain ⟨b', c', f', e', n'⟩ := t
  obtain ⟨h1, h2, h3, h4, h5⟩ := h
  dsimp only at h1 h2 h3 h4 h5
  subst h1 h2 h3 h4
  exact ⟨b, c, f, n, e, e', rfl, rfl, h5⟩

/-! ### Two containers -/

/-- Equal results of two calls on two containers, up to the blocks named in the event logs. -/
def AlikeRes2 : Res2 α β → Res2 α β → Prop
  | .ok b s t, .ok b' s' t' => b = b' ∧ Alike s s' ∧ Alike t t'
  | .err e s t, .err e' s' t' => e = e' ∧ Alike s s' ∧ Alike t t'
  | .ub, .ub => True
  | _, _ => False

/-- Two functions of two containers do the same in alike states. -/
def Agree2 (x y : M2 α β) : Prop :=
  ∀ s t s' t', Alike s s' → Alike t t' → AlikeRes2 (x s t) (y s' t')

/-- A function of two containers does the same in alike states. -/
structure Blind2 (x : M2 α β) : Prop where
  agree : Agree2 x x

theorem Agree2.bind {x y : M2 α β} {f g : β → M2 α γ} (h : Agree2 x y) (k : ∀ b, Agree2 (f b) (g b)) :
    Agree2 (x >>= f) (y >>= g) := by
  intro s t s' t' hs ht
  have h1 := h s t s' t' hs ht
  show AlikeRes2 ((x s t).bind _) ((y s' t').bind _)
  cases hx : x s t <;> cases hy : y s' t' <;> rw [hx, hy] at h1 <;> simp only [AlikeRes2] at h1 <;>
    simp only [Res2.bind]
  · obtain ⟨h2, h3, h4⟩ := h1
    rw [h2]
    exact k _ _ _ _ _ h3 h4
  · exact h1
  · trivial

theorem Blind2.bind {x : M2 α β} {f : β → M2 α γ} (h : Blind2 x) (k : ∀ b, Blind2 (f b)) : Blind2 (x >>= f) :=
  ⟨Agree2.bind h.agree fun b => (k b).agree⟩

theorem pure2_blind (b : β) : Blind2 (M2.pure b : M2 α β) := ⟨fun _ _ _ _ h k => ⟨rfl, h, k⟩⟩
theorem pure2'_blind (b : β) : Blind2 (Pure.pure b : M2 α β) := ⟨fun _ _ _ _ h k => ⟨rfl, h, k⟩⟩
theorem throw2_blind (e : Err) : Blind2 (throw2 e : M2 α β) := ⟨fun _ _ _ _ h k => ⟨rfl, h, k⟩⟩

theorem Agree.onSrc {x y : M α β} (h : Agree x y) : Agree2 (Mtv.onSrc x) (Mtv.onSrc y) := by
  intro s t s' t' hs ht
  have h1 := h s s' hs
  unfold Mtv.onSrc
  cases hx : x s <;> cases hy : y s' <;> rw [hx, hy] at h1 <;> simp_all [AlikeRes, AlikeRes2]

theorem Agree.onDst {x y : M α β} (h : Agree x y) : Agree2 (Mtv.onDst x) (Mtv.onDst y) := by
  intro s t s' t' hs ht
  have h1 := h t t' ht
  unfold Mtv.onDst
  cases hx : x t <;> cases hy : y t' <;> rw [hx, hy] at h1 <;> simp_all [AlikeRes, AlikeRes2]

theorem Agree2.flip {x y : M2 α β} (h : Agree2 x y) : Agree2 (Mtv.flipM x) (Mtv.flipM y) := by
  intro s t s' t' hs ht
  have h1 := h t s t' s' ht hs
  unfold Mtv.flipM
  cases hx : x t s <;> cases hy : y t' s' <;> rw [hx, hy] at h1 <;> simp_all [AlikeRes2]

theorem Blind.onSrc {x : M α β} (h : Blind x) : Blind2 (Mtv.onSrc x) := ⟨Agree.onSrc h.agree⟩
theorem Blind.onDst {x : M α β} (h : Blind x) : Blind2 (Mtv.onDst x) := ⟨Agree.onDst h.agree⟩

theorem Blind2.flip {x : M2 α β} (h : Blind2 x) : Blind2 (Mtv.flipM x) := ⟨Agree2.flip h.agree⟩

theorem swapAll_blind : Blind2 (Mtv.swapAll : M2 α Unit) := ⟨fun _ _ _ _ h k => ⟨rfl, k, h⟩⟩

/-- Functions written out on the state. -/
macro "blind_prim " f:ident : tactic => `(tactic|
  (constructor
   intro s t h
   obtain ⟨b, c, f, n, e, e', h1, h2, he⟩ := h.elim
   subst h1 h2
   unfold $f
   try dsimp only
   repeat' split
   all_goals first
     | trivial
     | contradiction
     | (exact absurd (by assumption) (by assumption))
     | simp_all [AlikeRes, Alike, kind]))

/-- One step through the text of a function. -/
macro "blind_step" : tactic => `(tactic| first
  | with_reducible apply Blind.bind
  | with_reducible apply Blind2.bind
  | intro _
  | with_reducible exact pure_blind _
  | with_reducible exact pure2_blind _
  | with_reducible exact throw_blind _
  | with_reducible exact ub_blind
  | with_reducible apply Blind.onSrc
  | with_reducible apply Blind.onDst
  | with_reducible apply Blind2.flip
  | with_reducible exact throw2_blind _
  | with_reducible exact pure'_blind _
  | with_reducible exact pure2'_blind _
  | split)


theorem getB_blind (i : Nat) : Blind (Mtv.getB i : M α (Blk α)) :=
  by blind_prim Mtv.getB

theorem putB_blind (i : Nat) (b : Blk α) : Blind (Mtv.putB i b : M α Unit) :=
  by blind_prim Mtv.putB

theorem nBlocks_blind  : Blind (Mtv.nBlocks : M α Nat) :=
  by blind_prim Mtv.nBlocks

theorem curSize_blind  : Blind (Mtv.curSize : M α Nat) :=
  by blind_prim Mtv.curSize

theorem setCurSize_blind (n : Nat) : Blind (Mtv.setCurSize n : M α Unit) :=
  by blind_prim Mtv.setCurSize

theorem setSize_blind (i n : Nat) : Blind (Mtv.setSize i n : M α Unit) :=
  by unfold Mtv.setSize; (try dsimp only) <;> repeat' first | with_reducible apply getB_blind | with_reducible apply putB_blind | blind_step

theorem addSize_blind (i n : Nat) : Blind (Mtv.addSize i n : M α Unit) :=
  by unfold Mtv.addSize; (try dsimp only) <;> repeat' first | with_reducible apply getB_blind | with_reducible apply putB_blind | blind_step

theorem subSize_blind (i n : Nat) : Blind (Mtv.subSize i n : M α Unit) :=
  by unfold Mtv.subSize; (try dsimp only) <;> repeat' first | with_reducible apply getB_blind | with_reducible apply putB_blind | blind_step

theorem setPos_blind (i n : Nat) : Blind (Mtv.setPos i n : M α Unit) :=
  by unfold Mtv.setPos; (try dsimp only) <;> repeat' first | with_reducible apply getB_blind | with_reducible apply putB_blind | blind_step

theorem addPos_blind (i n : Nat) : Blind (Mtv.addPos i n : M α Unit) :=
  by unfold Mtv.addPos; (try dsimp only) <;> repeat' first | with_reducible apply getB_blind | with_reducible apply putB_blind | blind_step

theorem subPos_blind (i n : Nat) : Blind (Mtv.subPos i n : M α Unit) :=
  by unfold Mtv.subPos; (try dsimp only) <;> repeat' first | with_reducible apply getB_blind | with_reducible apply putB_blind | blind_step

theorem setData_blind (i : Nat) (d : Option (EB α)) : Blind (Mtv.setData i d : M α Unit) :=
  by unfold Mtv.setData; (try dsimp only) <;> repeat' first | with_reducible apply getB_blind | with_reducible apply putB_blind | blind_step

theorem insB_blind (i : Nat) (bs : List (Blk α)) : Blind (Mtv.insB i bs : M α Unit) :=
  by blind_prim Mtv.insB

theorem insZ_blind (i n : Nat) : Blind (Mtv.insZ i n : M α Unit) :=
  by unfold Mtv.insZ; (try dsimp only) <;> repeat' first | with_reducible apply insB_blind | blind_step

theorem pushB_blind (b : Blk α) : Blind (Mtv.pushB b : M α Unit) :=
  by unfold Mtv.pushB; (try dsimp only) <;> repeat' first | with_reducible apply nBlocks_blind | with_reducible apply insB_blind | blind_step

theorem delB_blind (i n : Nat) : Blind (Mtv.delB i n : M α Unit) :=
  by blind_prim Mtv.delB

theorem popB_blind  : Blind (Mtv.popB : M α Unit) :=
  by unfold Mtv.popB; (try dsimp only) <;> repeat' first | with_reducible apply nBlocks_blind | with_reducible apply delB_blind | blind_step

theorem calcPos_blind (i : Nat) : Blind (Mtv.calcPos i : M α Unit) :=
  by unfold Mtv.calcPos; (try dsimp only) <;> repeat' first | with_reducible apply getB_blind | with_reducible apply setPos_blind | blind_step

theorem swapB_blind (i j : Nat) : Blind (Mtv.swapB i j : M α Unit) :=
  by unfold Mtv.swapB; (try dsimp only) <;> repeat' first | with_reducible apply getB_blind | with_reducible apply putB_blind | blind_step

theorem shiftUp_blind (i d : Nat) : Blind (Mtv.shiftUp i d : M α Unit) :=
  by blind_prim Mtv.shiftUp

theorem shiftDown_blind (i d : Nat) : Blind (Mtv.shiftDown i d : M α Unit) :=
  by blind_prim Mtv.shiftDown

theorem deref_blind (i : Nat) : Blind (Mtv.deref i : M α (EB α)) :=
  by unfold Mtv.deref; (try dsimp only) <;> repeat' first | with_reducible apply getB_blind | blind_step

theorem putVals_blind (i : Nat) (vs : List α) : Blind (Mtv.putVals i vs : M α Unit) :=
  by unfold Mtv.putVals; (try dsimp only) <;> repeat' first | with_reducible apply getB_blind | with_reducible apply putB_blind | blind_step

theorem free_blind (ty : Ty) (xs : List α) : Blind (Mtv.free ty xs : M α Unit) :=
  by blind_prim Mtv.free

theorem acquired_blind (d : EB α) : Blind (Mtv.acquired d : M α Unit) :=
  by blind_prim Mtv.acquired

theorem released_blind (d : EB α) : Blind (Mtv.released d : M α Unit) :=
  by blind_prim Mtv.released

theorem newEB_blind (ty : Ty) (vs : List α) : Blind (Mtv.newEB ty vs : M α (EB α)) :=
  by blind_prim Mtv.newEB

theorem deleteBlock_blind  (x0 : Option (EB α)) : Blind (Mtv.deleteBlock x0 : M α Unit) :=
  by unfold Mtv.deleteBlock; (try dsimp only) <;> repeat' first | with_reducible apply free_blind | blind_step

theorem overwrite_blind (i off len : Nat) : Blind (Mtv.overwrite i off len : M α Unit) :=
  by unfold Mtv.overwrite; (try dsimp only) <;> repeat' first | with_reducible apply deref_blind | with_reducible apply free_blind | blind_step

theorem eraseVals_blind (i off len : Nat) : Blind (Mtv.eraseVals i off len : M α Unit) :=
  by unfold Mtv.eraseVals; (try dsimp only) <;> repeat' first | with_reducible apply deref_blind | with_reducible apply putVals_blind | blind_step

theorem shrinkVals_blind (i n : Nat) : Blind (Mtv.shrinkVals i n : M α Unit) :=
  by unfold Mtv.shrinkVals; (try dsimp only) <;> repeat' first | with_reducible apply deref_blind | with_reducible apply putVals_blind | blind_step

theorem setVals_blind (i off : Nat) (ty : Ty) (vs : List α) : Blind (Mtv.setVals i off ty vs : M α Unit) :=
  by unfold Mtv.setVals; (try dsimp only) <;> repeat' first | with_reducible apply deref_blind | with_reducible apply putVals_blind | blind_step

theorem appendVals_blind (i : Nat) (ty : Ty) (vs : List α) : Blind (Mtv.appendVals i ty vs : M α Unit) :=
  by unfold Mtv.appendVals; (try dsimp only) <;> repeat' first | with_reducible apply deref_blind | with_reducible apply putVals_blind | blind_step

theorem prependVals_blind (i : Nat) (ty : Ty) (vs : List α) : Blind (Mtv.prependVals i ty vs : M α Unit) :=
  by unfold Mtv.prependVals; (try dsimp only) <;> repeat' first | with_reducible apply deref_blind | with_reducible apply putVals_blind | blind_step

theorem insertVals_blind (i off : Nat) (ty : Ty) (vs : List α) : Blind (Mtv.insertVals i off ty vs : M α Unit) :=
  by unfold Mtv.insertVals; (try dsimp only) <;> repeat' first | with_reducible apply deref_blind | with_reducible apply putVals_blind | blind_step

theorem assignVals_blind (i : Nat) (ty : Ty) (vs : List α) : Blind (Mtv.assignVals i ty vs : M α Unit) :=
  by unfold Mtv.assignVals; (try dsimp only) <;> repeat' first | with_reducible apply deref_blind | with_reducible apply putVals_blind | blind_step

theorem rangeOf_blind (j begin len : Nat) (ty : Ty) : Blind (Mtv.rangeOf j begin len ty : M α (List α)) :=
  by unfold Mtv.rangeOf; (try dsimp only) <;> repeat' first | with_reducible apply deref_blind | blind_step

theorem assignFrom_blind (i j begin len : Nat) : Blind (Mtv.assignFrom i j begin len : M α Unit) :=
  by unfold Mtv.assignFrom; (try dsimp only) <;> repeat' first | with_reducible apply deref_blind | with_reducible apply putVals_blind | with_reducible apply rangeOf_blind | blind_step

theorem appendFrom_blind (i j begin len : Nat) : Blind (Mtv.appendFrom i j begin len : M α Unit) :=
  by unfold Mtv.appendFrom; (try dsimp only) <;> repeat' first | with_reducible apply deref_blind | with_reducible apply putVals_blind | with_reducible apply rangeOf_blind | blind_step

theorem prependFrom_blind (i j begin len : Nat) : Blind (Mtv.prependFrom i j begin len : M α Unit) :=
  by unfold Mtv.prependFrom; (try dsimp only) <;> repeat' first | with_reducible apply deref_blind | with_reducible apply putVals_blind | with_reducible apply rangeOf_blind | blind_step

theorem appendBlock_blind (i j : Nat) : Blind (Mtv.appendBlock i j : M α Unit) :=
  by unfold Mtv.appendBlock; (try dsimp only) <;> repeat' first | with_reducible apply deref_blind | with_reducible apply putVals_blind | blind_step

theorem deleteElementBlock_blind (i : Nat) : Blind (Mtv.deleteElementBlock i : M α Unit) :=
  by unfold Mtv.deleteElementBlock; (try dsimp only) <;> repeat' first | with_reducible apply getB_blind | with_reducible apply setData_blind | with_reducible apply released_blind | with_reducible apply deleteBlock_blind | blind_step

theorem deleteElementBlocks_blind (start : Nat) (x0 : Nat) : Blind (Mtv.deleteElementBlocks start x0 : M α Unit) :=
  by
  induction x0 generalizing start with
  | zero => unfold Mtv.deleteElementBlocks; (try dsimp only) <;> repeat' first | with_reducible apply deleteElementBlock_blind | blind_step
  | succ k ih => unfold Mtv.deleteElementBlocks; (try dsimp only) <;> repeat' first | with_reducible apply deleteElementBlock_blind | with_reducible apply ih | blind_step

theorem isPrevOfType_blind (i : Nat) (cat : Option Ty) : Blind (Mtv.isPrevOfType i cat : M α Bool) :=
  by unfold Mtv.isPrevOfType; (try dsimp only) <;> repeat' first | with_reducible apply getB_blind | blind_step

theorem isNextOfType_blind (i : Nat) (cat : Option Ty) : Blind (Mtv.isNextOfType i cat : M α Bool) :=
  by unfold Mtv.isNextOfType; (try dsimp only) <;> repeat' first | with_reducible apply getB_blind | with_reducible apply nBlocks_blind | blind_step

theorem createNewBlockWithNewCell_blind (i : Nat) (ty : Ty) (x : α) : Blind (Mtv.createNewBlockWithNewCell i ty x : M α Unit) :=
  by unfold Mtv.createNewBlockWithNewCell; (try dsimp only) <;> repeat' first | with_reducible apply getB_blind | with_reducible apply setData_blind | with_reducible apply acquired_blind | with_reducible apply released_blind | with_reducible apply newEB_blind | with_reducible apply deleteBlock_blind | with_reducible apply appendVals_blind | blind_step

theorem appendCellToBlock_blind (i : Nat) (ty : Ty) (x : α) : Blind (Mtv.appendCellToBlock i ty x : M α Unit) :=
  by unfold Mtv.appendCellToBlock; (try dsimp only) <;> repeat' first | with_reducible apply addSize_blind | with_reducible apply appendVals_blind | blind_step

theorem setNewBlockToMiddle_blind (i offset n : Nat) (doOverwrite : Bool) : Blind (Mtv.setNewBlockToMiddle i offset n doOverwrite : M α Nat) :=
  by unfold Mtv.setNewBlockToMiddle; (try dsimp only) <;> repeat' first | with_reducible apply getB_blind | with_reducible apply setSize_blind | with_reducible apply setPos_blind | with_reducible apply setData_blind | with_reducible apply insZ_blind | with_reducible apply calcPos_blind | with_reducible apply swapB_blind | with_reducible apply acquired_blind | with_reducible apply newEB_blind | with_reducible apply overwrite_blind | with_reducible apply eraseVals_blind | with_reducible apply shrinkVals_blind | with_reducible apply assignFrom_blind | blind_step

theorem setCellToMiddle_blind (i off : Nat) (ty : Ty) (x : α) : Blind (Mtv.setCellToMiddle i off ty x : M α Nat) :=
  by unfold Mtv.setCellToMiddle; (try dsimp only) <;> repeat' first | with_reducible apply createNewBlockWithNewCell_blind | with_reducible apply setNewBlockToMiddle_blind | blind_step

theorem setCellToTop_blind (i : Nat) (ty : Ty) (x : α) : Blind (Mtv.setCellToTop i ty x : M α Unit) :=
  by unfold Mtv.setCellToTop; (try dsimp only) <;> repeat' first | with_reducible apply getB_blind | with_reducible apply subSize_blind | with_reducible apply addPos_blind | with_reducible apply insB_blind | with_reducible apply overwrite_blind | with_reducible apply eraseVals_blind | with_reducible apply createNewBlockWithNewCell_blind | blind_step

theorem setCellToBottom_blind (i : Nat) (ty : Ty) (x : α) : Blind (Mtv.setCellToBottom i ty x : M α Unit) :=
  by unfold Mtv.setCellToBottom; (try dsimp only) <;> repeat' first | with_reducible apply getB_blind | with_reducible apply subSize_blind | with_reducible apply insB_blind | with_reducible apply calcPos_blind | with_reducible apply overwrite_blind | with_reducible apply eraseVals_blind | with_reducible apply createNewBlockWithNewCell_blind | blind_step

theorem setCellToEmptyBlockTop_blind (off : Nat) (ty : Ty) (x : α) : Blind (Mtv.setCellToEmptyBlockTop off ty x : M α Nat) :=
  by unfold Mtv.setCellToEmptyBlockTop; (try dsimp only) <;> repeat' first | with_reducible apply getB_blind | with_reducible apply nBlocks_blind | with_reducible apply curSize_blind | with_reducible apply setSize_blind | with_reducible apply addSize_blind | with_reducible apply subSize_blind | with_reducible apply setPos_blind | with_reducible apply subPos_blind | with_reducible apply insB_blind | with_reducible apply insZ_blind | with_reducible apply pushB_blind | with_reducible apply delB_blind | with_reducible apply calcPos_blind | with_reducible apply prependVals_blind | with_reducible apply deleteElementBlock_blind | with_reducible apply isNextOfType_blind | with_reducible apply createNewBlockWithNewCell_blind | with_reducible apply setCellToMiddle_blind | blind_step

theorem setCellToEmptyBlockBelow_blind (j off : Nat) (ty : Ty) (x : α) : Blind (Mtv.setCellToEmptyBlockBelow j off ty x : M α Nat) :=
  by unfold Mtv.setCellToEmptyBlockBelow; (try dsimp only) <;> repeat' first | with_reducible apply getB_blind | with_reducible apply nBlocks_blind | with_reducible apply setSize_blind | with_reducible apply addSize_blind | with_reducible apply subSize_blind | with_reducible apply setPos_blind | with_reducible apply addPos_blind | with_reducible apply subPos_blind | with_reducible apply insB_blind | with_reducible apply pushB_blind | with_reducible apply delB_blind | with_reducible apply popB_blind | with_reducible apply calcPos_blind | with_reducible apply deref_blind | with_reducible apply released_blind | with_reducible apply deleteBlock_blind | with_reducible apply shrinkVals_blind | with_reducible apply appendVals_blind | with_reducible apply prependVals_blind | with_reducible apply prependFrom_blind | with_reducible apply appendBlock_blind | with_reducible apply deleteElementBlock_blind | with_reducible apply isNextOfType_blind | with_reducible apply createNewBlockWithNewCell_blind | with_reducible apply appendCellToBlock_blind | with_reducible apply setCellToMiddle_blind | blind_step

theorem setCellToEmptyBlock_blind (i off : Nat) (ty : Ty) (x : α) : Blind (Mtv.setCellToEmptyBlock i off ty x : M α Nat) :=
  by unfold Mtv.setCellToEmptyBlock; (try dsimp only) <;> repeat' first | with_reducible apply setCellToEmptyBlockTop_blind | with_reducible apply setCellToEmptyBlockBelow_blind | blind_step

theorem setCellToSizeOne_blind (i : Nat) (ty : Ty) (x : α) : Blind (Mtv.setCellToSizeOne i ty x : M α Nat) :=
  by unfold Mtv.setCellToSizeOne; (try dsimp only) <;> repeat' first | with_reducible apply getB_blind | with_reducible apply nBlocks_blind | with_reducible apply addSize_blind | with_reducible apply subPos_blind | with_reducible apply delB_blind | with_reducible apply shrinkVals_blind | with_reducible apply appendVals_blind | with_reducible apply prependVals_blind | with_reducible apply appendBlock_blind | with_reducible apply deleteElementBlock_blind | with_reducible apply isNextOfType_blind | with_reducible apply createNewBlockWithNewCell_blind | blind_step

theorem setAtEndIntoNext_blind (i : Nat) (ty : Ty) (x : α) : Blind (Mtv.setAtEndIntoNext i ty x : M α Nat) :=
  by unfold Mtv.setAtEndIntoNext; (try dsimp only) <;> repeat' first | with_reducible apply getB_blind | with_reducible apply addSize_blind | with_reducible apply subSize_blind | with_reducible apply subPos_blind | with_reducible apply overwrite_blind | with_reducible apply eraseVals_blind | with_reducible apply prependVals_blind | blind_step

theorem setImpl_blind (pos i : Nat) (ty : Ty) (x : α) : Blind (Mtv.setImpl pos i ty x : M α Nat) :=
  by unfold Mtv.setImpl; (try dsimp only) <;> repeat' first | with_reducible apply getB_blind | with_reducible apply nBlocks_blind | with_reducible apply addSize_blind | with_reducible apply subSize_blind | with_reducible apply addPos_blind | with_reducible apply overwrite_blind | with_reducible apply eraseVals_blind | with_reducible apply setVals_blind | with_reducible apply appendVals_blind | with_reducible apply isPrevOfType_blind | with_reducible apply isNextOfType_blind | with_reducible apply setCellToMiddle_blind | with_reducible apply setCellToTop_blind | with_reducible apply setCellToBottom_blind | with_reducible apply setCellToEmptyBlock_blind | with_reducible apply setCellToSizeOne_blind | with_reducible apply setAtEndIntoNext_blind | blind_step

theorem searchFrom_blind (row start : Nat) : Blind (Mtv.searchFrom row start : M α Nat) :=
  by blind_prim Mtv.searchFrom

theorem getBlockPosition_blind (row start : Nat) : Blind (Mtv.getBlockPosition row start : M α Nat) :=
  by unfold Mtv.getBlockPosition; (try dsimp only) <;> repeat' first | with_reducible apply nBlocks_blind | with_reducible apply curSize_blind | with_reducible apply searchFrom_blind | blind_step

theorem walkBack_blind (row : Nat) (x0 : Nat) : Blind (Mtv.walkBack row x0 : M α (Option Nat)) :=
  by
  induction x0 generalizing row with
  | zero => unfold Mtv.walkBack; (try dsimp only) <;> repeat' first | with_reducible apply getB_blind | blind_step
  | succ k ih => unfold Mtv.walkBack; (try dsimp only) <;> repeat' first | with_reducible apply getB_blind | with_reducible apply ih | blind_step

theorem getBlockPositionHint_blind (hint : Option Nat) (row : Nat) : Blind (Mtv.getBlockPositionHint hint row : M α Nat) :=
  by unfold Mtv.getBlockPositionHint; (try dsimp only) <;> repeat' first | with_reducible apply getB_blind | with_reducible apply nBlocks_blind | with_reducible apply getBlockPosition_blind | with_reducible apply walkBack_blind | blind_step

theorem mergeWithNext_blind (i : Nat) : Blind (Mtv.mergeWithNext i : M α Bool) :=
  by unfold Mtv.mergeWithNext; (try dsimp only) <;> repeat' first | with_reducible apply getB_blind | with_reducible apply nBlocks_blind | with_reducible apply addSize_blind | with_reducible apply delB_blind | with_reducible apply shrinkVals_blind | with_reducible apply appendBlock_blind | with_reducible apply deleteElementBlock_blind | blind_step

theorem mergeWithAdjacent_blind (i : Nat) : Blind (Mtv.mergeWithAdjacent i : M α Nat) :=
  by unfold Mtv.mergeWithAdjacent; (try dsimp only) <;> repeat' first | with_reducible apply getB_blind | with_reducible apply nBlocks_blind | with_reducible apply addSize_blind | with_reducible apply delB_blind | with_reducible apply shrinkVals_blind | with_reducible apply appendBlock_blind | with_reducible apply deleteElementBlock_blind | with_reducible apply mergeWithNext_blind | blind_step

theorem appendToPrev_blind (i : Nat) (ty : Ty) (length : Nat) (vs : List α) : Blind (Mtv.appendToPrev i ty length vs : M α Bool) :=
  by unfold Mtv.appendToPrev; (try dsimp only) <;> repeat' first | with_reducible apply addSize_blind | with_reducible apply appendVals_blind | with_reducible apply isPrevOfType_blind | blind_step

theorem newBlockAt_blind (i : Nat) (ty : Ty) (vs : List α) : Blind (Mtv.newBlockAt i ty vs : M α Unit) :=
  by unfold Mtv.newBlockAt; (try dsimp only) <;> repeat' first | with_reducible apply setData_blind | with_reducible apply acquired_blind | with_reducible apply newEB_blind | with_reducible apply assignVals_blind | blind_step

theorem dropOld_blind  (x0 : Option (EB α)) : Blind (Mtv.dropOld x0 : M α Unit) :=
  by unfold Mtv.dropOld; (try dsimp only) <;> repeat' first | with_reducible apply released_blind | with_reducible apply deleteBlock_blind | blind_step

theorem keepLower_blind (i pos length : Nat) (x0 : Option (EB α)) : Blind (Mtv.keepLower i pos length x0 : M α Unit) :=
  by unfold Mtv.keepLower; (try dsimp only) <;> repeat' first | with_reducible apply setData_blind | with_reducible apply deref_blind | with_reducible apply newEB_blind | with_reducible apply deleteBlock_blind | with_reducible apply overwrite_blind | with_reducible apply shrinkVals_blind | with_reducible apply rangeOf_blind | blind_step

theorem cutLower_blind (i newSize length : Nat) (x0 : Option (EB α)) : Blind (Mtv.cutLower i newSize length x0 : M α Unit) :=
  by unfold Mtv.cutLower; (try dsimp only) <;> repeat' first | with_reducible apply overwrite_blind | with_reducible apply shrinkVals_blind | blind_step

theorem setCellsSingle_blind (row endRow i : Nat) (ty : Ty) (vs : List α) : Blind (Mtv.setCellsSingle row endRow i ty vs : M α Nat) :=
  by unfold Mtv.setCellsSingle; (try dsimp only) <;> repeat' first | with_reducible apply getB_blind | with_reducible apply nBlocks_blind | with_reducible apply curSize_blind | with_reducible apply setSize_blind | with_reducible apply addSize_blind | with_reducible apply addPos_blind | with_reducible apply subPos_blind | with_reducible apply insB_blind | with_reducible apply pushB_blind | with_reducible apply delB_blind | with_reducible apply calcPos_blind | with_reducible apply overwrite_blind | with_reducible apply setVals_blind | with_reducible apply prependVals_blind | with_reducible apply assignVals_blind | with_reducible apply deleteElementBlock_blind | with_reducible apply isNextOfType_blind | with_reducible apply setNewBlockToMiddle_blind | with_reducible apply mergeWithNext_blind | with_reducible apply appendToPrev_blind | with_reducible apply newBlockAt_blind | with_reducible apply dropOld_blind | with_reducible apply keepLower_blind | with_reducible apply cutLower_blind | blind_step

theorem multiHead_blind (row i1 : Nat) (ty : Ty) (vs : List α) : Blind (Mtv.multiHead row i1 ty vs : M α (Blk α × EB α × Nat)) :=
  by unfold Mtv.multiHead; (try dsimp only) <;> repeat' first | with_reducible apply getB_blind | with_reducible apply setSize_blind | with_reducible apply setData_blind | with_reducible apply acquired_blind | with_reducible apply newEB_blind | with_reducible apply cutLower_blind | blind_step

theorem eraseUpper_blind (i n : Nat) (x0 : Option (EB α)) : Blind (Mtv.eraseUpper i n x0 : M α Unit) :=
  by unfold Mtv.eraseUpper; (try dsimp only) <;> repeat' first | with_reducible apply subSize_blind | with_reducible apply addPos_blind | with_reducible apply overwrite_blind | with_reducible apply eraseVals_blind | blind_step

theorem multiTail_blind (endRow i2 : Nat) (ty : Ty) : Blind (Mtv.multiTail endRow i2 ty : M α (Nat × List α × Nat)) :=
  by unfold Mtv.multiTail; (try dsimp only) <;> repeat' first | with_reducible apply getB_blind | with_reducible apply nBlocks_blind | with_reducible apply shrinkVals_blind | with_reducible apply rangeOf_blind | with_reducible apply eraseUpper_blind | blind_step

theorem setCellsMultiNonEqual_blind (row endRow i1 i2 : Nat) (ty : Ty) (vs : List α) : Blind (Mtv.setCellsMultiNonEqual row endRow i1 i2 ty vs : M α Nat) :=
  by unfold Mtv.setCellsMultiNonEqual; (try dsimp only) <;> repeat' first | with_reducible apply insB_blind | with_reducible apply delB_blind | with_reducible apply deleteElementBlocks_blind | with_reducible apply multiHead_blind | with_reducible apply multiTail_blind | blind_step

theorem multiTailEqual_blind (endRow i1 i2 : Nat) (ty : Ty) : Blind (Mtv.multiTailEqual endRow i1 i2 ty : M α Nat) :=
  by unfold Mtv.multiTailEqual; (try dsimp only) <;> repeat' first | with_reducible apply getB_blind | with_reducible apply addSize_blind | with_reducible apply subSize_blind | with_reducible apply addPos_blind | with_reducible apply overwrite_blind | with_reducible apply eraseVals_blind | with_reducible apply shrinkVals_blind | with_reducible apply appendFrom_blind | blind_step

theorem setCellsMulti_blind (row endRow i1 i2 : Nat) (ty : Ty) (vs : List α) : Blind (Mtv.setCellsMulti row endRow i1 i2 ty vs : M α Nat) :=
  by unfold Mtv.setCellsMulti; (try dsimp only) <;> repeat' first | with_reducible apply getB_blind | with_reducible apply setSize_blind | with_reducible apply delB_blind | with_reducible apply overwrite_blind | with_reducible apply shrinkVals_blind | with_reducible apply appendVals_blind | with_reducible apply deleteElementBlocks_blind | with_reducible apply setCellsMultiNonEqual_blind | with_reducible apply multiTailEqual_blind | blind_step

theorem setCellsImpl_blind (row endRow i1 : Nat) (ty : Ty) (vs : List α) : Blind (Mtv.setCellsImpl row endRow i1 ty vs : M α Nat) :=
  by unfold Mtv.setCellsImpl; (try dsimp only) <;> repeat' first | with_reducible apply nBlocks_blind | with_reducible apply getBlockPosition_blind | with_reducible apply setCellsSingle_blind | with_reducible apply setCellsMulti_blind | blind_step

theorem moveLower_blind (i offset n2 : Nat) (x0 : Option (EB α)) : Blind (Mtv.moveLower i offset n2 x0 : M α Unit) :=
  by unfold Mtv.moveLower; (try dsimp only) <;> repeat' first | with_reducible apply setData_blind | with_reducible apply acquired_blind | with_reducible apply newEB_blind | with_reducible apply shrinkVals_blind | with_reducible apply assignFrom_blind | blind_step

theorem insertCellsToMiddle_blind (row i : Nat) (ty : Ty) (vs : List α) : Blind (Mtv.insertCellsToMiddle row i ty vs : M α Unit) :=
  by unfold Mtv.insertCellsToMiddle; (try dsimp only) <;> repeat' first | with_reducible apply getB_blind | with_reducible apply setSize_blind | with_reducible apply insZ_blind | with_reducible apply calcPos_blind | with_reducible apply shiftUp_blind | with_reducible apply newBlockAt_blind | with_reducible apply moveLower_blind | blind_step

theorem growCur_blind (n : Nat) : Blind (Mtv.growCur n : M α Unit) :=
  by unfold Mtv.growCur; (try dsimp only) <;> repeat' first | with_reducible apply curSize_blind | with_reducible apply setCurSize_blind | blind_step

theorem insertIntoPrev_blind (i : Nat) (ty : Ty) (vs : List α) : Blind (Mtv.insertIntoPrev i ty vs : M α Nat) :=
  by unfold Mtv.insertIntoPrev; (try dsimp only) <;> repeat' first | with_reducible apply addSize_blind | with_reducible apply shiftUp_blind | with_reducible apply appendVals_blind | with_reducible apply growCur_blind | blind_step

theorem insertCellsImpl_blind (row i : Nat) (ty : Ty) (vs : List α) : Blind (Mtv.insertCellsImpl row i ty vs : M α Nat) :=
  by unfold Mtv.insertCellsImpl; (try dsimp only) <;> repeat' first | with_reducible apply getB_blind | with_reducible apply nBlocks_blind | with_reducible apply setSize_blind | with_reducible apply addSize_blind | with_reducible apply setData_blind | with_reducible apply insB_blind | with_reducible apply shiftUp_blind | with_reducible apply acquired_blind | with_reducible apply newEB_blind | with_reducible apply insertVals_blind | with_reducible apply assignVals_blind | with_reducible apply isPrevOfType_blind | with_reducible apply newBlockAt_blind | with_reducible apply insertCellsToMiddle_blind | with_reducible apply growCur_blind | with_reducible apply insertIntoPrev_blind | blind_step

theorem overwriteIf_blind (ow : Bool) (i off len : Nat) : Blind (Mtv.overwriteIf ow i off len : M α Unit) :=
  by unfold Mtv.overwriteIf; (try dsimp only) <;> repeat' first | with_reducible apply overwrite_blind | blind_step

theorem forgetIf_blind (ow : Bool) (i : Nat) (x0 : Option (EB α)) : Blind (Mtv.forgetIf ow i x0 : M α Unit) :=
  by unfold Mtv.forgetIf; (try dsimp only) <;> repeat' first | with_reducible apply shrinkVals_blind | blind_step

theorem setWholeBlockEmpty_blind (i : Nat) (ow : Bool) : Blind (Mtv.setWholeBlockEmpty i ow : M α Nat) :=
  by unfold Mtv.setWholeBlockEmpty; (try dsimp only) <;> repeat' first | with_reducible apply getB_blind | with_reducible apply addSize_blind | with_reducible apply delB_blind | with_reducible apply deleteElementBlock_blind | with_reducible apply isPrevOfType_blind | with_reducible apply isNextOfType_blind | with_reducible apply forgetIf_blind | blind_step

theorem setEmptySingle_blind (row endRow i : Nat) (ow : Bool) : Blind (Mtv.setEmptySingle row endRow i ow : M α Nat) :=
  by unfold Mtv.setEmptySingle; (try dsimp only) <;> repeat' first | with_reducible apply getB_blind | with_reducible apply addSize_blind | with_reducible apply subSize_blind | with_reducible apply setPos_blind | with_reducible apply addPos_blind | with_reducible apply insB_blind | with_reducible apply eraseVals_blind | with_reducible apply isPrevOfType_blind | with_reducible apply isNextOfType_blind | with_reducible apply setNewBlockToMiddle_blind | with_reducible apply overwriteIf_blind | with_reducible apply setWholeBlockEmpty_blind | blind_step

theorem emptyHead_blind (row i1 : Nat) (ow : Bool) : Blind (Mtv.emptyHead row i1 ow : M α (Nat × Nat)) :=
  by unfold Mtv.emptyHead; (try dsimp only) <;> repeat' first | with_reducible apply getB_blind | with_reducible apply setSize_blind | with_reducible apply shrinkVals_blind | with_reducible apply deleteElementBlock_blind | with_reducible apply isPrevOfType_blind | with_reducible apply overwriteIf_blind | with_reducible apply forgetIf_blind | blind_step

theorem emptyTail_blind (endRow i2 : Nat) (ow : Bool) : Blind (Mtv.emptyTail endRow i2 ow : M α (Nat × Nat)) :=
  by unfold Mtv.emptyTail; (try dsimp only) <;> repeat' first | with_reducible apply getB_blind | with_reducible apply subSize_blind | with_reducible apply setPos_blind | with_reducible apply eraseVals_blind | with_reducible apply isNextOfType_blind | with_reducible apply overwriteIf_blind | blind_step

theorem emptyMid_blind (ow : Bool) (i : Nat) (x0 : Nat) : Blind (Mtv.emptyMid ow i x0 : M α Unit) :=
  by
  induction x0 generalizing ow i with
  | zero => unfold Mtv.emptyMid; (try dsimp only) <;> repeat' first | with_reducible apply getB_blind | with_reducible apply deleteElementBlock_blind | with_reducible apply forgetIf_blind | blind_step
  | succ k ih => unfold Mtv.emptyMid; (try dsimp only) <;> repeat' first | with_reducible apply getB_blind | with_reducible apply deleteElementBlock_blind | with_reducible apply forgetIf_blind | with_reducible apply ih | blind_step

theorem setEmptyMulti_blind (row endRow i1 i2 : Nat) (ow : Bool) : Blind (Mtv.setEmptyMulti row endRow i1 i2 ow : M α Nat) :=
  by unfold Mtv.setEmptyMulti; (try dsimp only) <;> repeat' first | with_reducible apply getB_blind | with_reducible apply setSize_blind | with_reducible apply setPos_blind | with_reducible apply insB_blind | with_reducible apply delB_blind | with_reducible apply emptyHead_blind | with_reducible apply emptyTail_blind | with_reducible apply emptyMid_blind | blind_step

theorem setEmptyImpl_blind (row endRow i1 : Nat) (ow : Bool) : Blind (Mtv.setEmptyImpl row endRow i1 ow : M α Nat) :=
  by unfold Mtv.setEmptyImpl; (try dsimp only) <;> repeat' first | with_reducible apply nBlocks_blind | with_reducible apply getBlockPosition_blind | with_reducible apply setEmptySingle_blind | with_reducible apply setEmptyMulti_blind | blind_step

theorem shrinkCur_blind (n : Nat) : Blind (Mtv.shrinkCur n : M α Unit) :=
  by unfold Mtv.shrinkCur; (try dsimp only) <;> repeat' first | with_reducible apply curSize_blind | with_reducible apply setCurSize_blind | blind_step

theorem eraseData_blind (i off n : Nat) (x0 : Option (EB α)) : Blind (Mtv.eraseData i off n x0 : M α Unit) :=
  by unfold Mtv.eraseData; (try dsimp only) <;> repeat' first | with_reducible apply overwrite_blind | with_reducible apply eraseVals_blind | blind_step

theorem eraseMerge_blind (i n : Nat) : Blind (Mtv.eraseMerge i n : M α Unit) :=
  by unfold Mtv.eraseMerge; (try dsimp only) <;> repeat' first | with_reducible apply getB_blind | with_reducible apply addSize_blind | with_reducible apply delB_blind | with_reducible apply shiftDown_blind | with_reducible apply shrinkVals_blind | with_reducible apply appendBlock_blind | with_reducible apply deleteElementBlock_blind | blind_step

theorem eraseSingle_blind (row endRow i : Nat) : Blind (Mtv.eraseSingle row endRow i : M α Unit) :=
  by unfold Mtv.eraseSingle; (try dsimp only) <;> repeat' first | with_reducible apply getB_blind | with_reducible apply nBlocks_blind | with_reducible apply subSize_blind | with_reducible apply delB_blind | with_reducible apply shiftDown_blind | with_reducible apply deleteElementBlock_blind | with_reducible apply shrinkCur_blind | with_reducible apply eraseData_blind | with_reducible apply eraseMerge_blind | blind_step

theorem eraseHead_blind (row i1 : Nat) : Blind (Mtv.eraseHead row i1 : M α Nat) :=
  by unfold Mtv.eraseHead; (try dsimp only) <;> repeat' first | with_reducible apply getB_blind | with_reducible apply setSize_blind | with_reducible apply cutLower_blind | blind_step

theorem eraseTail_blind (row endRow i2 : Nat) : Blind (Mtv.eraseTail row endRow i2 : M α (Nat × Nat)) :=
  by unfold Mtv.eraseTail; (try dsimp only) <;> repeat' first | with_reducible apply getB_blind | with_reducible apply subSize_blind | with_reducible apply setPos_blind | with_reducible apply eraseData_blind | blind_step

theorem eraseBlocks_blind (row endRow i1 i2 : Nat) : Blind (Mtv.eraseBlocks row endRow i1 i2 : M α Nat) :=
  by unfold Mtv.eraseBlocks; (try dsimp only) <;> repeat' first | with_reducible apply delB_blind | with_reducible apply shiftDown_blind | with_reducible apply deleteElementBlocks_blind | with_reducible apply shrinkCur_blind | with_reducible apply eraseHead_blind | with_reducible apply eraseTail_blind | blind_step

theorem eraseMulti_blind (row endRow i1 i2 : Nat) : Blind (Mtv.eraseMulti row endRow i1 i2 : M α Unit) :=
  by unfold Mtv.eraseMulti; (try dsimp only) <;> repeat' first | with_reducible apply nBlocks_blind | with_reducible apply mergeWithNext_blind | with_reducible apply eraseBlocks_blind | blind_step

theorem eraseImpl_blind (row endRow : Nat) : Blind (Mtv.eraseImpl row endRow : M α Unit) :=
  by unfold Mtv.eraseImpl; (try dsimp only) <;> repeat' first | with_reducible apply nBlocks_blind | with_reducible apply getBlockPosition_blind | with_reducible apply eraseSingle_blind | with_reducible apply eraseMulti_blind | blind_step

theorem erase_blind (row endRow : Nat) : Blind (Mtv.erase row endRow : M α Unit) :=
  by unfold Mtv.erase; (try dsimp only) <;> repeat' first | with_reducible apply eraseImpl_blind | blind_step

theorem insertEmptyImpl_blind (pos i length : Nat) : Blind (Mtv.insertEmptyImpl pos i length : M α Nat) :=
  by unfold Mtv.insertEmptyImpl; (try dsimp only) <;> repeat' first | with_reducible apply getB_blind | with_reducible apply setSize_blind | with_reducible apply addSize_blind | with_reducible apply setPos_blind | with_reducible apply setData_blind | with_reducible apply insB_blind | with_reducible apply insZ_blind | with_reducible apply calcPos_blind | with_reducible apply swapB_blind | with_reducible apply shiftUp_blind | with_reducible apply acquired_blind | with_reducible apply newEB_blind | with_reducible apply eraseVals_blind | with_reducible apply shrinkVals_blind | with_reducible apply assignFrom_blind | with_reducible apply isPrevOfType_blind | with_reducible apply growCur_blind | blind_step

theorem pushBack_blind (ty : Ty) (x : α) : Blind (Mtv.pushBack ty x : M α Nat) :=
  by unfold Mtv.pushBack; (try dsimp only) <;> repeat' first | with_reducible apply getB_blind | with_reducible apply nBlocks_blind | with_reducible apply curSize_blind | with_reducible apply addSize_blind | with_reducible apply pushB_blind | with_reducible apply appendVals_blind | with_reducible apply createNewBlockWithNewCell_blind | with_reducible apply growCur_blind | blind_step

theorem appendEmpty_blind (len : Nat) : Blind (Mtv.appendEmpty len : M α Bool) :=
  by unfold Mtv.appendEmpty; (try dsimp only) <;> repeat' first | with_reducible apply getB_blind | with_reducible apply nBlocks_blind | with_reducible apply curSize_blind | with_reducible apply setCurSize_blind | with_reducible apply addSize_blind | with_reducible apply pushB_blind | with_reducible apply growCur_blind | blind_step

theorem pushBackEmpty_blind  : Blind (Mtv.pushBackEmpty : M α Nat) :=
  by unfold Mtv.pushBackEmpty; (try dsimp only) <;> repeat' first | with_reducible apply nBlocks_blind | with_reducible apply appendEmpty_blind | blind_step

theorem clear_blind  : Blind (Mtv.clear : M α Unit) :=
  by unfold Mtv.clear; (try dsimp only) <;> repeat' first | with_reducible apply nBlocks_blind | with_reducible apply setCurSize_blind | with_reducible apply delB_blind | with_reducible apply deleteElementBlocks_blind | blind_step

theorem resizeCut_blind (newSize i : Nat) : Blind (Mtv.resizeCut newSize i : M α Unit) :=
  by unfold Mtv.resizeCut; (try dsimp only) <;> repeat' first | with_reducible apply getB_blind | with_reducible apply setSize_blind | with_reducible apply overwrite_blind | with_reducible apply shrinkVals_blind | blind_step

theorem resize_blind (newSize : Nat) : Blind (Mtv.resize newSize : M α Unit) :=
  by unfold Mtv.resize; (try dsimp only) <;> repeat' first | with_reducible apply nBlocks_blind | with_reducible apply curSize_blind | with_reducible apply setCurSize_blind | with_reducible apply delB_blind | with_reducible apply deleteElementBlocks_blind | with_reducible apply getBlockPosition_blind | with_reducible apply appendEmpty_blind | with_reducible apply clear_blind | with_reducible apply resizeCut_blind | blind_step

theorem lookup_blind  (x0 : At) (x1 : Nat) : Blind (Mtv.lookup x0 x1 : M α Nat) :=
  by unfold Mtv.lookup; (try dsimp only) <;> repeat' first | with_reducible apply getBlockPosition_blind | with_reducible apply getBlockPositionHint_blind | blind_step

theorem set_blind (h : At) (pos : Nat) (ty : Ty) (x : α) : Blind (Mtv.set h pos ty x : M α Nat) :=
  by unfold Mtv.set; (try dsimp only) <;> repeat' first | with_reducible apply nBlocks_blind | with_reducible apply setImpl_blind | with_reducible apply lookup_blind | blind_step

theorem setRange_blind (h : At) (pos : Nat) (ty : Ty) (vs : List α) : Blind (Mtv.setRange h pos ty vs : M α Nat) :=
  by unfold Mtv.setRange; (try dsimp only) <;> repeat' first | with_reducible apply nBlocks_blind | with_reducible apply curSize_blind | with_reducible apply setCellsImpl_blind | with_reducible apply lookup_blind | blind_step

theorem insert_blind (h : At) (pos : Nat) (ty : Ty) (vs : List α) : Blind (Mtv.insert h pos ty vs : M α Nat) :=
  by unfold Mtv.insert; (try dsimp only) <;> repeat' first | with_reducible apply nBlocks_blind | with_reducible apply insertCellsImpl_blind | with_reducible apply lookup_blind | blind_step

theorem setEmpty_blind (h : At) (row endRow : Nat) : Blind (Mtv.setEmpty h row endRow : M α Nat) :=
  by unfold Mtv.setEmpty; (try dsimp only) <;> repeat' first | with_reducible apply nBlocks_blind | with_reducible apply setEmptyImpl_blind | with_reducible apply lookup_blind | blind_step

theorem releaseRange_blind (h : At) (row endRow : Nat) : Blind (Mtv.releaseRange h row endRow : M α Nat) :=
  by unfold Mtv.releaseRange; (try dsimp only) <;> repeat' first | with_reducible apply nBlocks_blind | with_reducible apply setEmptyImpl_blind | with_reducible apply lookup_blind | blind_step

theorem insertEmpty_blind (h : At) (pos length : Nat) : Blind (Mtv.insertEmpty h pos length : M α Nat) :=
  by unfold Mtv.insertEmpty; (try dsimp only) <;> repeat' first | with_reducible apply nBlocks_blind | with_reducible apply insertEmptyImpl_blind | with_reducible apply lookup_blind | blind_step

theorem getValue_blind (d : EB α) (off : Nat) (ty : Ty) : Blind (Mtv.getValue d off ty : M α α) :=
  by unfold Mtv.getValue; (try dsimp only) <;> repeat' first | blind_step

theorem releaseImpl_blind (pos i : Nat) (ty : Ty) : Blind (Mtv.releaseImpl pos i ty : M α (Option α × Nat)) :=
  by unfold Mtv.releaseImpl; (try dsimp only) <;> repeat' first | with_reducible apply getB_blind | with_reducible apply setEmptySingle_blind | with_reducible apply getValue_blind | blind_step

theorem release_blind (h : At) (pos : Nat) (ty : Ty) : Blind (Mtv.release h pos ty : M α (Option α × Nat)) :=
  by unfold Mtv.release; (try dsimp only) <;> repeat' first | with_reducible apply nBlocks_blind | with_reducible apply lookup_blind | with_reducible apply releaseImpl_blind | blind_step

theorem releaseBlock_blind (i : Nat) : Blind (Mtv.releaseBlock i : M α Unit) :=
  by unfold Mtv.releaseBlock; (try dsimp only) <;> repeat' first | with_reducible apply getB_blind | with_reducible apply shrinkVals_blind | with_reducible apply deleteElementBlock_blind | blind_step

theorem releaseBlocks_blind (start : Nat) (x0 : Nat) : Blind (Mtv.releaseBlocks start x0 : M α Unit) :=
  by
  induction x0 generalizing start with
  | zero => unfold Mtv.releaseBlocks; (try dsimp only) <;> repeat' first | with_reducible apply releaseBlock_blind | blind_step
  | succ k ih => unfold Mtv.releaseBlocks; (try dsimp only) <;> repeat' first | with_reducible apply releaseBlock_blind | with_reducible apply ih | blind_step

theorem releaseAll_blind  : Blind (Mtv.releaseAll : M α Unit) :=
  by unfold Mtv.releaseAll; (try dsimp only) <;> repeat' first | with_reducible apply nBlocks_blind | with_reducible apply setCurSize_blind | with_reducible apply delB_blind | with_reducible apply releaseBlocks_blind | blind_step

theorem size_blind  : Blind (Mtv.size : M α Nat) :=
  by unfold Mtv.size; (try dsimp only) <;> repeat' first | with_reducible apply curSize_blind | blind_step

theorem get_blind (pos : Nat) (ty : Ty) : Blind (Mtv.get pos ty : M α (Option α)) :=
  by unfold Mtv.get; (try dsimp only) <;> repeat' first | with_reducible apply getB_blind | with_reducible apply nBlocks_blind | with_reducible apply getBlockPosition_blind | with_reducible apply getValue_blind | blind_step

theorem getType_blind (pos : Nat) : Blind (Mtv.getType pos : M α (Option Ty)) :=
  by unfold Mtv.getType; (try dsimp only) <;> repeat' first | with_reducible apply getB_blind | with_reducible apply nBlocks_blind | with_reducible apply getBlockPosition_blind | blind_step

theorem isEmpty_blind (pos : Nat) : Blind (Mtv.isEmpty pos : M α Bool) :=
  by unfold Mtv.isEmpty; (try dsimp only) <;> repeat' first | with_reducible apply getB_blind | with_reducible apply nBlocks_blind | with_reducible apply getBlockPosition_blind | blind_step

theorem position_blind (h : At) (pos : Nat) : Blind (Mtv.position h pos : M α (Nat × Nat)) :=
  by unfold Mtv.position; (try dsimp only) <;> repeat' first | with_reducible apply getB_blind | with_reducible apply nBlocks_blind | with_reducible apply curSize_blind | with_reducible apply lookup_blind | blind_step

theorem logicalPosition_blind (p : Nat × Nat) : Blind (Mtv.logicalPosition p : M α Nat) :=
  by unfold Mtv.logicalPosition; (try dsimp only) <;> repeat' first | with_reducible apply getB_blind | blind_step

theorem nextPosition_blind (p : Nat × Nat) : Blind (Mtv.nextPosition p : M α (Nat × Nat)) :=
  by unfold Mtv.nextPosition; (try dsimp only) <;> repeat' first | with_reducible apply getB_blind | blind_step

theorem advanceFwd_blind  (x0 : Nat) (x1 : Nat × Nat) (x2 : Nat) : Blind (Mtv.advanceFwd x0 x1 x2 : M α (Nat × Nat)) :=
  by
  induction x0 generalizing x1 x2 with
  | zero => unfold Mtv.advanceFwd; (try dsimp only) <;> repeat' first | with_reducible apply getB_blind | blind_step
  | succ k ih => unfold Mtv.advanceFwd; (try dsimp only) <;> repeat' first | with_reducible apply getB_blind | with_reducible apply ih | blind_step

theorem advanceBwd_blind  (x0 : Nat) (x1 : Nat × Nat) (x2 : Nat) : Blind (Mtv.advanceBwd x0 x1 x2 : M α (Nat × Nat)) :=
  by
  induction x0 generalizing x1 x2 with
  | zero => unfold Mtv.advanceBwd; (try dsimp only) <;> repeat' first | with_reducible apply getB_blind | blind_step
  | succ k ih => unfold Mtv.advanceBwd; (try dsimp only) <;> repeat' first | with_reducible apply getB_blind | with_reducible apply ih | blind_step

theorem getAt_blind (p : Nat × Nat) (ty : Ty) : Blind (Mtv.getAt p ty : M α α) :=
  by unfold Mtv.getAt; (try dsimp only) <;> repeat' first | with_reducible apply getB_blind | with_reducible apply getValue_blind | blind_step

theorem destroy_blind  : Blind (Mtv.destroy : M α Unit) :=
  by unfold Mtv.destroy; (try dsimp only) <;> repeat' first | with_reducible apply nBlocks_blind | with_reducible apply deleteElementBlocks_blind | blind_step



theorem slotFor_blind (j dpos len : Nat) : Blind (Mtv.slotFor j dpos len : M α Nat) :=
  by unfold Mtv.slotFor; (try dsimp only) <;> repeat' first | with_reducible apply getB_blind | with_reducible apply setSize_blind | with_reducible apply subSize_blind | with_reducible apply addPos_blind | with_reducible apply insB_blind | with_reducible apply insZ_blind | with_reducible apply calcPos_blind | blind_step

theorem receive_blind (j : Nat) (d : EB α) : Blind (Mtv.receive j d : M α Unit) :=
  by unfold Mtv.receive; (try dsimp only) <;> repeat' first | with_reducible apply setData_blind | with_reducible apply acquired_blind | blind_step

theorem handOver_blind (i : Nat) (d : EB α) : Blind (Mtv.handOver i d : M α Unit) :=
  by unfold Mtv.handOver; (try dsimp only) <;> repeat' first | with_reducible apply setData_blind | with_reducible apply released_blind | blind_step

theorem transferSingle_blind (a e i1 dpos : Nat) : Blind2 (Mtv.transferSingle a e i1 dpos : M2 α Nat) :=
  by unfold Mtv.transferSingle; (try dsimp only) <;> repeat' first | with_reducible apply getB_blind | with_reducible apply rangeOf_blind | with_reducible apply mergeWithAdjacent_blind | with_reducible apply newBlockAt_blind | with_reducible apply setEmptySingle_blind | with_reducible apply setEmpty_blind | with_reducible apply slotFor_blind | with_reducible apply receive_blind | with_reducible apply handOver_blind | blind_step

theorem slotsFor_blind (j dpos len n : Nat) : Blind (Mtv.slotsFor j dpos len n : M α Nat) :=
  by unfold Mtv.slotsFor; (try dsimp only) <;> repeat' first | with_reducible apply getB_blind | with_reducible apply setSize_blind | with_reducible apply subSize_blind | with_reducible apply setPos_blind | with_reducible apply addPos_blind | with_reducible apply insZ_blind | with_reducible apply deleteElementBlock_blind | blind_step

theorem movePointer_blind (i j : Nat) (d : Option (EB α)) : Blind2 (Mtv.movePointer i j d : M2 α Unit) :=
  by unfold Mtv.movePointer; (try dsimp only) <;> repeat' first | with_reducible apply setData_blind | with_reducible apply acquired_blind | with_reducible apply handOver_blind | blind_step

theorem moveFirst_blind (a i1 j : Nat) : Blind2 (Mtv.moveFirst a i1 j : M2 α Bool) :=
  by unfold Mtv.moveFirst; (try dsimp only) <;> repeat' first | with_reducible apply getB_blind | with_reducible apply setSize_blind | with_reducible apply calcPos_blind | with_reducible apply shrinkVals_blind | with_reducible apply rangeOf_blind | with_reducible apply newBlockAt_blind | with_reducible apply movePointer_blind | blind_step

theorem moveMid_blind  (x0 : Nat) (x1 : Nat) (x2 : Nat) (x3 : Nat) : Blind2 (Mtv.moveMid x0 x1 x2 x3 : M2 α Unit) :=
  by
  induction x2 generalizing x0 x1 x3 with
  | zero => unfold Mtv.moveMid; (try dsimp only) <;> repeat' first | with_reducible apply getB_blind | with_reducible apply setSize_blind | with_reducible apply setPos_blind | with_reducible apply position_blind | with_reducible apply movePointer_blind | blind_step
  | succ k ih => unfold Mtv.moveMid; (try dsimp only) <;> repeat' first | with_reducible apply getB_blind | with_reducible apply setSize_blind | with_reducible apply setPos_blind | with_reducible apply position_blind | with_reducible apply movePointer_blind | with_reducible apply ih | blind_step

theorem moveLast_blind (e i2 j : Nat) : Blind2 (Mtv.moveLast e i2 j : M2 α Bool) :=
  by unfold Mtv.moveLast; (try dsimp only) <;> repeat' first | with_reducible apply getB_blind | with_reducible apply setSize_blind | with_reducible apply subSize_blind | with_reducible apply addPos_blind | with_reducible apply calcPos_blind | with_reducible apply eraseVals_blind | with_reducible apply rangeOf_blind | with_reducible apply newBlockAt_blind | with_reducible apply movePointer_blind | blind_step

theorem fillGap_blind (del1 del2 len : Nat) : Blind (Mtv.fillGap del1 del2 len : M α Nat) :=
  by unfold Mtv.fillGap; (try dsimp only) <;> repeat' first | with_reducible apply getB_blind | with_reducible apply setSize_blind | with_reducible apply addSize_blind | with_reducible apply delB_blind | with_reducible apply calcPos_blind | with_reducible apply mergeWithAdjacent_blind | blind_step

theorem closeGap_blind (i1 i2 len : Nat) (keep1 keep2 : Bool) : Blind (Mtv.closeGap i1 i2 len keep1 keep2 : M α Nat) :=
  by unfold Mtv.closeGap; (try dsimp only) <;> repeat' first | with_reducible apply getB_blind | with_reducible apply addSize_blind | with_reducible apply subPos_blind | with_reducible apply insB_blind | with_reducible apply calcPos_blind | with_reducible apply fillGap_blind | blind_step

theorem transferMulti_blind (a e i1 i2 dpos : Nat) : Blind2 (Mtv.transferMulti a e i1 i2 dpos : M2 α Nat) :=
  by unfold Mtv.transferMulti; (try dsimp only) <;> repeat' first | with_reducible apply getB_blind | with_reducible apply mergeWithAdjacent_blind | with_reducible apply setEmpty_blind | with_reducible apply position_blind | with_reducible apply slotsFor_blind | with_reducible apply moveFirst_blind | with_reducible apply moveMid_blind | with_reducible apply moveLast_blind | with_reducible apply closeGap_blind | blind_step

theorem transferImpl_blind (a e i1 dpos : Nat) : Blind2 (Mtv.transferImpl a e i1 dpos : M2 α Nat) :=
  by unfold Mtv.transferImpl; (try dsimp only) <;> repeat' first | with_reducible apply nBlocks_blind | with_reducible apply curSize_blind | with_reducible apply getBlockPosition_blind | with_reducible apply transferSingle_blind | with_reducible apply transferMulti_blind | blind_step

theorem transfer_blind (same : Bool) (h : At) (a e dpos : Nat) : Blind2 (Mtv.transfer same h a e dpos : M2 α Nat) :=
  by unfold Mtv.transfer; (try dsimp only) <;> repeat' first | with_reducible apply nBlocks_blind | with_reducible apply lookup_blind | with_reducible apply transferImpl_blind | blind_step

theorem exchangeOne_blind (ty : Ty) (vs : List α) (j off len : Nat) : Blind (Mtv.exchangeOne ty vs j off len : M α (EB α)) :=
  by unfold Mtv.exchangeOne; (try dsimp only) <;> repeat' first | with_reducible apply getB_blind | with_reducible apply setSize_blind | with_reducible apply addSize_blind | with_reducible apply subSize_blind | with_reducible apply addPos_blind | with_reducible apply subPos_blind | with_reducible apply setData_blind | with_reducible apply insB_blind | with_reducible apply delB_blind | with_reducible apply deref_blind | with_reducible apply released_blind | with_reducible apply newEB_blind | with_reducible apply eraseVals_blind | with_reducible apply shrinkVals_blind | with_reducible apply appendVals_blind | with_reducible apply prependVals_blind | with_reducible apply rangeOf_blind | with_reducible apply appendBlock_blind | with_reducible apply deleteElementBlock_blind | with_reducible apply isPrevOfType_blind | with_reducible apply isNextOfType_blind | with_reducible apply setNewBlockToMiddle_blind | with_reducible apply newBlockAt_blind | blind_step

theorem takeIn_blind (i off len tail : Nat) (data : EB α) : Blind (Mtv.takeIn i off len tail data : M α Unit) :=
  by unfold Mtv.takeIn; (try dsimp only) <;> repeat' first | with_reducible apply getB_blind | with_reducible apply setSize_blind | with_reducible apply addSize_blind | with_reducible apply subSize_blind | with_reducible apply addPos_blind | with_reducible apply subPos_blind | with_reducible apply insB_blind | with_reducible apply calcPos_blind | with_reducible apply eraseVals_blind | with_reducible apply shrinkVals_blind | with_reducible apply appendVals_blind | with_reducible apply prependVals_blind | with_reducible apply isPrevOfType_blind | with_reducible apply isNextOfType_blind | with_reducible apply setNewBlockToMiddle_blind | with_reducible apply receive_blind | blind_step

theorem swapSingle_blind (a e dpos i j : Nat) : Blind2 (Mtv.swapSingle a e dpos i j : M2 α Unit) :=
  by unfold Mtv.swapSingle; (try dsimp only) <;> repeat' first | with_reducible apply getB_blind | with_reducible apply released_blind | with_reducible apply setVals_blind | with_reducible apply rangeOf_blind | with_reducible apply mergeWithAdjacent_blind | with_reducible apply receive_blind | with_reducible apply transferSingle_blind | with_reducible apply exchangeOne_blind | with_reducible apply takeIn_blind | blind_step

theorem collect_blind  (x0 : Nat) (x1 : Nat) : Blind (Mtv.collect x0 x1 : M α (List (Blk α))) :=
  by
  induction x1 generalizing x0 with
  | zero => unfold Mtv.collect; (try dsimp only) <;> repeat' first | with_reducible apply getB_blind | with_reducible apply released_blind | blind_step
  | succ k ih => unfold Mtv.collect; (try dsimp only) <;> repeat' first | with_reducible apply getB_blind | with_reducible apply released_blind | with_reducible apply ih | blind_step

theorem copyLower_blind (i off : Nat) : Blind (Mtv.copyLower i off : M α (Blk α)) :=
  by unfold Mtv.copyLower; (try dsimp only) <;> repeat' first | with_reducible apply getB_blind | with_reducible apply setSize_blind | with_reducible apply newEB_blind | with_reducible apply shrinkVals_blind | with_reducible apply rangeOf_blind | blind_step

theorem copyUpper_blind (i n : Nat) : Blind (Mtv.copyUpper i n : M α (Blk α)) :=
  by unfold Mtv.copyUpper; (try dsimp only) <;> repeat' first | with_reducible apply getB_blind | with_reducible apply subSize_blind | with_reducible apply addPos_blind | with_reducible apply newEB_blind | with_reducible apply eraseVals_blind | with_reducible apply rangeOf_blind | blind_step

theorem prepare_blind (i1 off1 i2 off2 : Nat) : Blind (Mtv.prepare i1 off1 i2 off2 : M α (Nat × List (Blk α))) :=
  by unfold Mtv.prepare; (try dsimp only) <;> repeat' first | with_reducible apply getB_blind | with_reducible apply delB_blind | with_reducible apply collect_blind | with_reducible apply copyLower_blind | with_reducible apply copyUpper_blind | blind_step

theorem layOut_blind  (x0 : Nat) (x1 : List (Blk α)) : Blind (Mtv.layOut x0 x1 : M α (List (Blk α))) :=
  by
  induction x1 generalizing x0 with
  | nil => unfold Mtv.layOut; (try dsimp only) <;> repeat' first | with_reducible apply acquired_blind | with_reducible apply position_blind | blind_step
  | cons b bs ih => unfold Mtv.layOut; (try dsimp only) <;> repeat' first | with_reducible apply acquired_blind | with_reducible apply position_blind | with_reducible apply ih | blind_step

theorem insertBlocksAt_blind (position i : Nat) (bs : List (Blk α)) : Blind (Mtv.insertBlocksAt position i bs : M α Unit) :=
  by unfold Mtv.insertBlocksAt; (try dsimp only) <;> repeat' first | with_reducible apply insB_blind | with_reducible apply position_blind | with_reducible apply layOut_blind | blind_step

theorem exchangeMany_blind (ty : Ty) (vs : List α) (j1 off1 j2 off2 len : Nat) : Blind (Mtv.exchangeMany ty vs j1 off1 j2 off2 len : M α (List (Blk α))) :=
  by unfold Mtv.exchangeMany; (try dsimp only) <;> repeat' first | with_reducible apply insB_blind | with_reducible apply calcPos_blind | with_reducible apply mergeWithAdjacent_blind | with_reducible apply newBlockAt_blind | with_reducible apply prepare_blind | blind_step

theorem placeBlocks_blind (position i : Nat) (bs : List (Blk α)) : Blind (Mtv.placeBlocks position i bs : M α Unit) :=
  by unfold Mtv.placeBlocks; (try dsimp only) <;> repeat' first | with_reducible apply mergeWithNext_blind | with_reducible apply position_blind | with_reducible apply insertBlocksAt_blind | blind_step

theorem swapSingleMulti_blind (a e dpos i j1 j2 : Nat) : Blind2 (Mtv.swapSingleMulti a e dpos i j1 j2 : M2 α Unit) :=
  by unfold Mtv.swapSingleMulti; (try dsimp only) <;> repeat' first | with_reducible apply getB_blind | with_reducible apply setSize_blind | with_reducible apply subSize_blind | with_reducible apply addPos_blind | with_reducible apply delB_blind | with_reducible apply eraseVals_blind | with_reducible apply shrinkVals_blind | with_reducible apply rangeOf_blind | with_reducible apply deleteElementBlock_blind | with_reducible apply setNewBlockToMiddle_blind | with_reducible apply transferMulti_blind | with_reducible apply exchangeMany_blind | with_reducible apply placeBlocks_blind | blind_step

theorem gapPosition_blind (i : Nat) : Blind (Mtv.gapPosition i : M α Nat) :=
  by unfold Mtv.gapPosition; (try dsimp only) <;> repeat' first | with_reducible apply getB_blind | blind_step

theorem swapMultiMulti_blind (a e dpos i1 i2 j1 j2 : Nat) : Blind2 (Mtv.swapMultiMulti a e dpos i1 i2 j1 j2 : M2 α Unit) :=
  by unfold Mtv.swapMultiMulti; (try dsimp only) <;> repeat' first | with_reducible apply getB_blind | with_reducible apply prepare_blind | with_reducible apply placeBlocks_blind | with_reducible apply gapPosition_blind | blind_step

theorem swapImpl_blind (a e dpos i1 i2 j1 j2 : Nat) : Blind2 (Mtv.swapImpl a e dpos i1 i2 j1 j2 : M2 α Unit) :=
  by unfold Mtv.swapImpl; (try dsimp only) <;> repeat' first | with_reducible apply swapSingle_blind | with_reducible apply swapSingleMulti_blind | with_reducible apply swapMultiMulti_blind | blind_step

theorem swapRange_blind (a e dpos : Nat) : Blind2 (Mtv.swapRange a e dpos : M2 α Unit) :=
  by unfold Mtv.swapRange; (try dsimp only) <;> repeat' first | with_reducible apply nBlocks_blind | with_reducible apply curSize_blind | with_reducible apply getBlockPosition_blind | with_reducible apply swapImpl_blind | blind_step

/-! ### insert -/

/-- Events of one kind may name different blocks. -/
theorem acquired_agree (d e : EB α) : Agree (acquired d : M α Unit) (acquired e) := by
  intro s t h
  obtain ⟨b, c, f, n, e, e', rfl, rfl, he⟩ := h.elim
  simp [acquired, AlikeRes, Alike, kind, he]

theorem insertCellsImpl_agree (row i : Nat) (ty : Ty) (vs : List α) :
    Agree (Aos.insertCellsImpl row i ty vs) (Mtv.insertCellsImpl row i ty vs) := by
  have hb := insertCellsImpl_blind row i ty vs
  unfold Aos.insertCellsImpl Mtv.insertCellsImpl
  rw [insertIntoPrev_eq, newBlockAt_eq, growCur_eq, insertCellsToMiddle_eq, isPrevOfType_eq]
  refine Agree.bind (getB_blind _).agree fun b => Agree.bind nBlocks_blind.agree fun n => ?_
  split
  · exact (pure_blind _).agree
  obtain ⟨bp, bs, bd⟩ := b
  cases bd with
  | none =>
    dsimp only
    refine Blind.agree ?_
    repeat' first
      | with_reducible apply isPrevOfType_blind | with_reducible apply insertIntoPrev_blind
      | with_reducible apply insB_blind | with_reducible apply newBlockAt_blind
      | with_reducible apply growCur_blind | with_reducible apply shiftUp_blind
      | with_reducible apply insertCellsToMiddle_blind | blind_step
  | some d =>
    dsimp only
    split
    · refine Blind.agree ?_
      repeat' first
        | with_reducible apply insertVals_blind | with_reducible apply addSize_blind
        | with_reducible apply growCur_blind | with_reducible apply shiftUp_blind | blind_step
    split
    · refine Agree.bind (isPrevOfType_blind _ _).agree fun pv => ?_
      split
      · exact (insertIntoPrev_blind _ _ _).agree
      · refine Agree.bind (insB_blind _ _).agree fun _ => Agree.bind (newEB_blind _ _).agree fun e =>
          Agree.bind (setData_blind _ _).agree fun _ => Agree.bind (acquired_agree _ _) fun _ => Blind.agree ?_
        repeat' first
          | with_reducible apply assignVals_blind | with_reducible apply setSize_blind
          | with_reducible apply growCur_blind | with_reducible apply shiftUp_blind | blind_step
    · refine Blind.agree ?_
      repeat' first
        | with_reducible apply insertCellsToMiddle_blind | with_reducible apply growCur_blind | blind_step

theorem insert_agree (h : At) (pos : Nat) (ty : Ty) (vs : List α) :
    Agree (Aos.insert h pos ty vs) (Mtv.insert h pos ty vs) := by
  unfold Aos.insert Mtv.insert
  rw [lookup_eq]
  refine Agree.bind (lookup_blind _ _).agree fun i => Agree.bind nBlocks_blind.agree fun n => ?_
  split
  · exact (throw_blind _).agree
  · exact insertCellsImpl_agree _ _ _ _

/-! ### Whole calls -/

theorem callRun_agree (c : Call α) : Agree (callRun c) c.run := by
  cases c <;> unfold callRun Call.run <;> dsimp only
  · rw [set_eq]; exact Agree.bind (set_blind _ _ _ _).agree fun _ => (pure_blind _).agree
  · rw [setRange_eq]; exact Agree.bind (setRange_blind _ _ _ _).agree fun _ => (pure_blind _).agree
  · exact Agree.bind (insert_agree _ _ _ _) fun _ => (pure_blind _).agree
  · rw [insertEmpty_eq]; exact Agree.bind (insertEmpty_blind _ _ _).agree fun _ => (pure_blind _).agree
  · rw [setEmpty_eq]; exact Agree.bind (setEmpty_blind _ _ _).agree fun _ => (pure_blind _).agree
  · rw [erase_eq]; exact Agree.bind (erase_blind _ _).agree fun _ => (pure_blind _).agree
  · rw [pushBack_eq]; exact Agree.bind (pushBack_blind _ _).agree fun _ => (pure_blind _).agree
  · rw [pushBackEmpty_eq]; exact Agree.bind (pushBackEmpty_blind).agree fun _ => (pure_blind _).agree
  · rw [Aos.resize_eq]; exact Agree.bind (resize_blind _).agree fun _ => (pure_blind _).agree
  · rw [clear_eq]; exact Agree.bind (clear_blind).agree fun _ => (pure_blind _).agree
  · rw [release_eq]; exact Agree.bind (release_blind _ _ _).agree fun _ => (pure_blind _).agree
  · rw [releaseRange_eq]; exact Agree.bind (releaseRange_blind _ _ _).agree fun _ => (pure_blind _).agree
  · rw [releaseAll_eq]; exact Agree.bind (releaseAll_blind).agree fun _ => (pure_blind _).agree

theorem op_agree (o : Op α) : Agree o.aos o.soa := by
  cases o <;> unfold Op.aos Op.soa <;> dsimp only
  · exact Agree.bind (callRun_agree _) fun _ => (pure_blind _).agree
  · exact Agree.bind curSize_blind.agree fun _ => (pure_blind _).agree
  · exact Agree.bind nBlocks_blind.agree fun _ => (pure_blind _).agree
  · rw [get_eq]; exact Agree.bind (get_blind _ _).agree fun _ => (pure_blind _).agree
  · rw [getType_eq]; exact Agree.bind (getType_blind _).agree fun _ => (pure_blind _).agree
  · rw [isEmpty_eq]; exact Agree.bind (isEmpty_blind _).agree fun _ => (pure_blind _).agree
  · rw [position_eq]; exact Agree.bind (position_blind _ _).agree fun _ => (pure_blind _).agree
  · rw [nextPosition_eq]; exact Agree.bind (nextPosition_blind _).agree fun _ => (pure_blind _).agree
  · rw [logicalPosition_eq]; exact Agree.bind (logicalPosition_blind _).agree fun _ => (pure_blind _).agree
  · rw [getAt_eq]; exact Agree.bind (getAt_blind _ _).agree fun _ => (pure_blind _).agree

theorem op2_agree (o : Op2 α) : Agree2 o.aos o.soa := by
  cases o <;> unfold Op2.aos Op2.soa <;> dsimp only
  · exact (op_agree _).onSrc
  · exact (op_agree _).onDst
  · rw [transfer_eq]; exact Agree2.bind (transfer_blind _ _ _ _ _).agree fun _ => (pure2_blind _).agree
  · rw [transfer_eq]; exact Agree2.flip (Agree2.bind (transfer_blind _ _ _ _ _).agree fun _ => (pure2_blind _).agree)
  · rw [swapRange_eq]; exact Agree2.bind (swapRange_blind _ _ _).agree fun _ => (pure2_blind _).agree
  · rw [swapRange_eq]; exact Agree2.flip (Agree2.bind (swapRange_blind _ _ _).agree fun _ => (pure2_blind _).agree)
  · rw [swapAll_eq]; exact Agree2.bind swapAll_blind.agree fun _ => (pure2_blind _).agree

theorem history_agree (os : List (Op α)) : ∀ s t : St α, Alike s t →
    (history Op.aos os s).1 = (history Op.soa os t).1 ∧
    Option.Rel Alike (history Op.aos os s).2 (history Op.soa os t).2 := by
  induction os with
  | nil => intro s t h; exact ⟨rfl, .some h⟩
  | cons o os ih =>
    intro s t h
    have h1 := op_agree o s t h
    simp only [history]
    cases hx : o.aos s <;> cases hy : o.soa t <;> rw [hx, hy] at h1 <;> simp only [AlikeRes] at h1 <;> dsimp only
    · obtain ⟨h2, h3⟩ := h1
      rw [h2, (ih _ _ h3).1]
      exact ⟨rfl, (ih _ _ h3).2⟩
    · obtain ⟨h2, h3⟩ := h1
      rw [h2, (ih _ _ h3).1]
      exact ⟨rfl, (ih _ _ h3).2⟩
    · exact ⟨rfl, .none⟩

theorem history2_agree (os : List (Op2 α)) : ∀ s t s' t' : St α, Alike s s' → Alike t t' →
    (history2 Op2.aos os s t).1 = (history2 Op2.soa os s' t').1 ∧
    Option.Rel (fun p q => Alike p.1 q.1 ∧ Alike p.2 q.2) (history2 Op2.aos os s t).2
      (history2 Op2.soa os s' t').2 := by
  induction os with
  | nil => intro s t s' t' h k; exact ⟨rfl, .some ⟨h, k⟩⟩
  | cons o os ih =>
    intro s t s' t' h k
    have h1 := op2_agree o s t s' t' h k
    simp only [history2]
    cases hx : o.aos s t <;> cases hy : o.soa s' t' <;> rw [hx, hy] at h1 <;> simp only [AlikeRes2] at h1 <;> dsimp only
    · obtain ⟨h2, h3, h4⟩ := h1
      rw [h2, (ih _ _ _ _ h3 h4).1]
      exact ⟨rfl, (ih _ _ _ _ h3 h4).2⟩
    · obtain ⟨h2, h3, h4⟩ := h1
      rw [h2, (ih _ _ _ _ h3 h4).1]
      exact ⟨rfl, (ih _ _ _ _ h3 h4).2⟩
    · exact ⟨rfl, .none⟩

end Mdds.Aos
