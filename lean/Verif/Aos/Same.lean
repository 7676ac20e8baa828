import Verif.Aos.Pair
import Verif.Mtv.PairSpec
import Verif.Mtv.Eval
/-!
# The two layouts of multi_type_vector: function by function

Every member function of the array-of-structures model is the same function on states as its
counterpart in the structure-of-arrays model, up to the event that `insert` fires (finding M1).
-/

namespace Mdds.Aos
open Mdds Mdds.Mtv

variable {α β γ : Type}

set_option linter.unusedSimpArgs false
set_option linter.unnecessarySeqFocus false
set_option linter.unreachableTactic false
set_option linter.unusedTactic false

theorem bind_eq (x : M α β) (f : β → M α γ) (s : St α) : (x >>= f) s = (x s).bind fun p => f p.1 p.2 := rfl

theorem nextPos_bind (i : Nat) (k : Nat → M α β) : (nextPos i >>= k) = (getB i >>= fun b => k (b.pos + b.size)) := by
  funext s
  simp only [nextPos, bind_eq, getB_ap]
  cases s.blocks[i]? <;> rfl

/-- A position computed and then stored is what `calc_block_position` does. -/
theorem calc_eq (i : Nat) (k : Unit → M α β) :
    (nextPos i >>= fun p => setPos (i + 1) p >>= k) = (calcPos (i + 1) >>= k) := by
  funext s
  simp only [nextPos, bind_eq, calcPos, getB_ap]
  cases s.blocks[i]? <;> rfl

theorem calc0_eq (i : Nat) : (nextPos i >>= fun p => setPos (i + 1) p : M α Unit) = calcPos (i + 1) := by
  funext s
  simp only [nextPos, bind_eq, calcPos, getB_ap]
  cases s.blocks[i]? <;> rfl

theorem calc2_eq (i : Nat) (k : Unit → M α β) :
    (nextPos (i + 1) >>= fun p => setPos (i + 2) p >>= k) = (calcPos (i + 2) >>= k) := calc_eq (i + 1) k

/-- A block put in with its position, or put in first and positioned then. -/
theorem put_eq (i n : Nat) (k : Unit → M α β) :
    (nextPos i >>= fun p => insB (i + 1) [⟨p, n, none⟩] >>= k) =
      (insB (i + 1) [⟨0, n, none⟩] >>= fun _ => calcPos (i + 1) >>= k) := by
  funext ⟨bs, cur, fr, ev, nx⟩
  simp only [nextPos, bind_eq, getB_ap, insB_ap]
  by_cases h : i < bs.length
  · rw [if_pos (by omega)]
    obtain ⟨b, hb⟩ : ∃ b, bs[i]? = some b := ⟨bs[i], List.getElem?_eq_getElem h⟩
    have h1 : (insAt bs (i + 1) [(⟨0, n, none⟩ : Blk α)])[i]? = some b := by
      unfold insAt
      rw [List.append_assoc, List.getElem?_append_left (by simp; omega)]
      simpa using hb
    have h2 : (insAt bs (i + 1) [(⟨0, n, none⟩ : Blk α)])[i + 1]? = some ⟨0, n, none⟩ := by
      unfold insAt
      rw [List.append_assoc, List.getElem?_append_right (by simp; omega)]
      simp [Nat.min_eq_left (show i + 1 ≤ bs.length by omega)]
    have h3 : ∀ c : Blk α, (insAt bs (i + 1) [(⟨0, n, none⟩ : Blk α)]).set (i + 1) c = insAt bs (i + 1) [c] := by
      intro c
      unfold insAt
      rw [List.append_assoc, List.append_assoc, List.set_append_right _ _ (by simp; omega)]
      simp [Nat.min_eq_left (show i + 1 ≤ bs.length by omega)]
    simp only [hb, insB_ap, if_pos (show i + 1 ≤ bs.length by omega), calcPos_succ, getB_ap, h1, setPos_ap, updB, h2, Option.bind_some, h3, Res.bind, mpure_apply]
  · rw [List.getElem?_eq_none (by omega), if_neg (by omega)]
    rfl

theorem put2_eq (i n : Nat) (k : Unit → M α β) :
    (nextPos (i + 1) >>= fun p => insB (i + 2) [⟨p, n, none⟩] >>= k) =
      (insB (i + 2) [⟨0, n, none⟩] >>= fun _ => calcPos (i + 2) >>= k) := put_eq (i + 1) n k

theorem bind_congr {x : M α β} {f g : β → M α γ} {s : St α}
    (h : ∀ b s', x s = .ok (b, s') → f b s' = g b s') : (x >>= f) s = (x >>= g) s := by
  simp only [bind_eq]
  cases hx : x s with
  | ok p => exact h p.1 p.2 hx
  | err e t => rfl
  | ub => rfl

/-- What a member function returns, if it returns. -/
def Returns (x : M α β) (P : β → Prop) : Prop := ∀ s b s', x s = .ok (b, s') → P b

theorem Returns.pure {P : β → Prop} {b : β} (h : P b) : Returns (M.pure b : M α β) P := by
  intro s c s' hc
  cases hc
  exact h

theorem Returns.bind {P : γ → Prop} {x : M α β} {f : β → M α γ} (h : ∀ b, Returns (f b) P) :
    Returns (x >>= f) P := by
  intro s c s' hc
  rw [bind_eq] at hc
  cases hx : x s with
  | ok p => rw [hx] at hc; exact h p.1 _ _ _ hc
  | err e t => rw [hx] at hc; cases hc
  | ub => rw [hx] at hc; cases hc

theorem Returns.ub {P : β → Prop} : Returns (ub_ : M α β) P := by
  intro s c s' hc
  cases hc

theorem putZ_eq (i n : Nat) (k : Unit → M α β) :
    (nextPos i >>= fun p => insB (i + 1) [⟨p, n, none⟩] >>= k) =
      (insZ (i + 1) 1 >>= fun _ => calcPos (i + 1) >>= fun _ => setSize (i + 1) n >>= k) := by
  have h := put_eq (α := α) i 0 (fun _ => setSize (i + 1) n >>= k)
  rw [show (insZ (i + 1) 1 : M α Unit) = insB (i + 1) [⟨0, 0, none⟩] from rfl, ← h]
  funext ⟨bs, cur, fr, ev, nx⟩
  simp only [nextPos, bind_eq, getB_ap]
  cases hb : bs[i]? with
  | none => rfl
  | some b =>
    have hl := lt_of_get hb
    have h2 : ∀ c : Blk α, (insAt bs (i + 1) [c])[i + 1]? = some c := by
      intro c
      unfold insAt
      rw [List.append_assoc, List.getElem?_append_right (by simp; omega)]
      simp [Nat.min_eq_left (show i + 1 ≤ bs.length by omega)]
    have h3 : ∀ c d : Blk α, (insAt bs (i + 1) [c]).set (i + 1) d = insAt bs (i + 1) [d] := by
      intro c d
      unfold insAt
      rw [List.append_assoc, List.append_assoc, List.set_append_right _ _ (by simp; omega)]
      simp [Nat.min_eq_left (show i + 1 ≤ bs.length by omega)]
    simp only [Res.bind, mpure_apply, insB_ap, if_pos (show i + 1 ≤ bs.length by omega), setSize_ap, updB, h2,
      Option.bind_some, h3]

/-- The same at the end of the store. -/
theorem push_eq (i n : Nat) (k : Unit → M α β) (s : St α) (hs : s.blocks.length = i + 1) :
    (nextPos i >>= fun p => pushB ⟨p, n, none⟩ >>= k) s =
      (pushB ⟨0, n, none⟩ >>= fun _ => calcPos (i + 1) >>= k) s := by
  have h := congrFun (put_eq (α := α) i n k) s
  rw [show (pushB ⟨0, n, none⟩ >>= fun _ => calcPos (i + 1) >>= k) s =
    (insB (i + 1) [⟨0, n, none⟩] >>= fun _ => calcPos (i + 1) >>= k) s by
      rw [bind_eq, bind_eq, pushB_ap, hs], ← h]
  refine bind_congr fun p s' hp => ?_
  have : s' = s := by
    simp only [nextPos, bind_eq, getB_ap] at hp
    cases hb : s.blocks[i]? with
    | none => rw [hb] at hp; cases hp
    | some b => rw [hb] at hp; cases hp; rfl
  rw [bind_eq, bind_eq, pushB_ap, this, hs]

theorem length_subSize {i n : Nat} {s s' : St α} {u : Unit} (h : subSize i n s = .ok (u, s')) :
    s'.blocks.length = s.blocks.length := by
  rw [subSize_ap] at h
  unfold updB at h
  split at h
  · cases h; simp
  · cases h

theorem comm_eq (i m : Nat) (k : Unit → M α β) :
    (calcPos (i + 1) >>= fun _ => setSize (i + 2) m >>= k) = (setSize (i + 2) m >>= fun _ => calcPos (i + 1) >>= k) := by
  funext ⟨bs, cur, fr, ev, nx⟩
  simp only [bind_eq, calcPos_succ, getB_ap, setPos_ap, setSize_ap, updB]
  by_cases h : i + 2 < bs.length
  · rw [List.getElem?_eq_getElem h, List.getElem?_eq_getElem (show i < bs.length by omega)]
    simp only [Res.bind, Option.bind_some, List.getElem?_set, List.getElem?_eq_getElem (show i + 1 < bs.length by omega),
      List.getElem?_eq_getElem (show i < bs.length by omega), List.getElem?_eq_getElem h]
    simp [List.set_comm _ _ (show i + 1 ≠ i + 2 by omega), List.getElem?_eq_getElem (show i + 1 < bs.length by omega)]
  · rw [List.getElem?_eq_none (show bs.length ≤ i + 2 by omega)]
    simp only [Option.bind_none, Res.bind]
    cases hb : bs[i]? with
    | none => rfl
    | some b =>
      simp only []
      cases hc : bs[i + 1]? with
      | none => rfl
      | some c =>
        simp only [Option.bind_some, List.getElem?_set]
        simp [List.getElem?_eq_none (show bs.length ≤ i + 2 by omega)]

/-- A size stored again changes nothing. -/
theorem again_eq (i p n : Nat) (ty : Ty) (vs : List α) (k : Unit → M α β) :
    (insB i [⟨p, n, none⟩] >>= fun _ => newEB ty [] >>= fun e => setData i (some e) >>= fun _ => acquired e >>= fun _ =>
      setSize i n >>= fun _ => assignVals i ty vs >>= k) =
      (insB i [⟨p, n, none⟩] >>= fun _ => Mtv.newBlockAt i ty vs >>= k) := by
  funext ⟨bs, cur, fr, ev, nx⟩
  simp only [bind_eq, insB_ap]
  by_cases h : i ≤ bs.length
  · rw [if_pos h]
    have h2 : ∀ c : Blk α, (insAt bs i [c])[i]? = some c := by
      intro c
      unfold insAt
      rw [List.append_assoc, List.getElem?_append_right (by simp; omega)]
      simp [Nat.min_eq_left h]
    have h3 : ∀ c d : Blk α, (insAt bs i [c]).set i d = insAt bs i [d] := by
      intro c d
      unfold insAt
      rw [List.append_assoc, List.append_assoc, List.set_append_right _ _ (by simp; omega)]
      simp [Nat.min_eq_left h]
    simp only [Res.bind, Mtv.newBlockAt, bind_eq, newEB, setData_ap, updB, h2, Option.bind_some, h3, acquired, setSize_ap]
  · rw [if_neg h]
    rfl

/-! Functions on two containers -/

theorem bind2_eq (x : M2 α β) (f : β → M2 α γ) (s t : St α) : (x >>= f) s t = (x s t).bind f := rfl

theorem assoc2 {δ : Type} (x : M2 α β) (f : β → M2 α γ) (g : γ → M2 α δ) :
    ((x >>= f) >>= g) = (x >>= fun b => f b >>= g) := by
  funext s t
  simp only [bind2_eq]
  cases x s t <;> rfl

theorem onDst_bind (x : M α β) (f : β → M α γ) : onDst (x >>= f) = (onDst x >>= fun b => onDst (f b)) := by
  funext s t
  simp only [bind2_eq, onDst, bind_eq]
  cases x t <;> rfl

theorem bind2_congr {x : M2 α β} {f g : β → M2 α γ} {s t : St α}
    (h : ∀ b s' t', x s t = .ok b s' t' → f b s' t' = g b s' t') : (x >>= f) s t = (x >>= g) s t := by
  simp only [bind2_eq]
  cases hx : x s t with
  | ok p a b => exact h p a b hx
  | err e a b => rfl
  | ub => rfl

theorem srcPos_bind (i : Nat) (k : Nat → M2 α β) :
    (onSrc (nextPos i) >>= k) = (onSrc (getB i) >>= fun b => k (b.pos + b.size)) := by
  funext s t
  simp only [bind2_eq, onSrc, nextPos, bind_eq, getB_ap]
  cases s.blocks[i]? <;> rfl

/-- A whole block record copied, or its parts one after the other. -/
theorem copy_eq (j p : Nat) (b : Blk α) :
    (putB j b >>= fun _ => setPos j p) = (setSize j b.size >>= fun _ => setPos j p >>= fun _ => setData j b.data) := by
  funext ⟨bs, cur, fr, ev, nx⟩
  simp only [bind_eq, putB_ap, setPos_ap, setSize_ap, setData_ap, updB]
  by_cases h : j < bs.length
  · simp [List.getElem?_eq_getElem h, Res.bind, h]
  · simp [List.getElem?_eq_none (show bs.length ≤ j by omega), Res.bind]

theorem place_eq (j : Nat) (b : Blk α) :
    placeCopy j b = (setSize j b.size >>= fun _ => calcPos j >>= fun _ => setData j b.data) := by
  unfold placeCopy
  cases j with
  | zero => exact copy_eq 0 0 b
  | succ k =>
    simp only [calc0_eq]
    funext ⟨bs, cur, fr, ev, nx⟩
    simp only [bind_eq, putB_ap, calcPos_succ, getB_ap, setPos_ap, setSize_ap, setData_ap, updB]
    by_cases h : k + 1 < bs.length
    · simp [List.getElem?_eq_getElem h, List.getElem?_eq_getElem (show k < bs.length by omega), Res.bind, h,
        List.getElem?_set]
    · simp [List.getElem?_eq_none (show bs.length ≤ k + 1 by omega), Res.bind]

theorem comm2 (i n j : Nat) (d : Option (EB α)) (k : Unit → M2 α β) :
    (onSrc (setSize i n) >>= fun _ => onDst (setData j d) >>= k) =
      (onDst (setData j d) >>= fun _ => onSrc (setSize i n) >>= k) := by
  funext s t
  simp only [bind2_eq, onSrc, onDst, setSize_ap, setData_ap, updB]
  rcases hs : s.blocks[i]? with _ | b <;> rcases ht : t.blocks[j]? with _ | c <;>
    simp [Res2.bind, hs, ht, bind2_eq, onSrc, onDst, setSize_ap, setData_ap, updB]

/-- States that agree from block `k` on. -/
structure Below (k : Nat) (s t : St α) : Prop where
  cur : s.cur = t.cur
  freed : s.freed = t.freed
  evs : s.evs = t.evs
  next : s.next = t.next
  length : s.blocks.length = t.blocks.length
  same : ∀ i, k ≤ i → s.blocks[i]? = t.blocks[i]?

theorem deleteElementBlock_eq : @Aos.deleteElementBlock α = @Mtv.deleteElementBlock α := rfl

theorem deleteElementBlocks_eq : @Aos.deleteElementBlocks α = @Mtv.deleteElementBlocks α := by
  funext i n
  induction n generalizing i with
  | zero => rfl
  | succ n ih => simp only [deleteElementBlocks, Mtv.deleteElementBlocks, deleteElementBlock_eq, ih]

theorem isPrevOfType_eq : @Aos.isPrevOfType α = @Mtv.isPrevOfType α := rfl

theorem isNextOfType_eq : @Aos.isNextOfType α = @Mtv.isNextOfType α := rfl

theorem createNewBlockWithNewCell_eq : @Aos.createNewBlockWithNewCell α = @Mtv.createNewBlockWithNewCell α := rfl

theorem appendCellToBlock_eq : @Aos.appendCellToBlock α = @Mtv.appendCellToBlock α := rfl

theorem setNewBlockToMiddle_eq : @Aos.setNewBlockToMiddle α = @Mtv.setNewBlockToMiddle α := by
  unfold Aos.setNewBlockToMiddle Mtv.setNewBlockToMiddle
  simp only [calc_eq, calc2_eq] <;> rfl

theorem middle_index (i off n : Nat) (ow : Bool) :
    Returns (Mtv.setNewBlockToMiddle i off n ow : M α Nat) (fun j => j = i + 1) := by
  unfold Mtv.setNewBlockToMiddle
  repeat' first
    | exact Returns.pure rfl
    | exact Returns.ub
    | refine Returns.bind fun _ => ?_
    | split

theorem setCellToMiddle_eq : @Aos.setCellToMiddle α = @Mtv.setCellToMiddle α := by
  funext i off ty x s
  unfold Aos.setCellToMiddle Mtv.setCellToMiddle
  rw [setNewBlockToMiddle_eq, createNewBlockWithNewCell_eq]
  refine bind_congr fun j s' h => ?_
  rw [middle_index _ _ _ _ _ _ _ h]

theorem setCellToTop_eq : @Aos.setCellToTop α = @Mtv.setCellToTop α := by
  unfold Aos.setCellToTop Mtv.setCellToTop
  simp only [createNewBlockWithNewCell_eq] <;> rfl

theorem setCellToBottom_eq : @Aos.setCellToBottom α = @Mtv.setCellToBottom α := by
  unfold Aos.setCellToBottom Mtv.setCellToBottom
  simp only [put_eq, createNewBlockWithNewCell_eq] <;> rfl

theorem setCellToEmptyBlockTop_eq : @Aos.setCellToEmptyBlockTop α = @Mtv.setCellToEmptyBlockTop α := by
  unfold Aos.setCellToEmptyBlockTop Mtv.setCellToEmptyBlockTop
  have h := putZ_eq (α := α) (β := Nat) 0 1
  simp only [Nat.zero_add] at h
  simp only [h, createNewBlockWithNewCell_eq, setCellToMiddle_eq, isNextOfType_eq, deleteElementBlock_eq]

theorem setCellToEmptyBlockBelow_eq : @Aos.setCellToEmptyBlockBelow α = @Mtv.setCellToEmptyBlockBelow α := by
  funext j off ty x s
  unfold Aos.setCellToEmptyBlockBelow Mtv.setCellToEmptyBlockBelow
  simp only [put2_eq, createNewBlockWithNewCell_eq, setCellToMiddle_eq, isNextOfType_eq, deleteElementBlock_eq,
    appendCellToBlock_eq]
  refine bind_congr fun n s1 h1 => bind_congr fun b s2 h2 => ?_
  cases h1
  split
  · rfl
  · split
    · split
      · rename_i hn
        refine bind_congr fun u s3 h3 => push_eq _ _ _ _ ?_
        rw [length_subSize h3]
        rw [getB_ap] at h2
        split at h2 <;> cases h2
        exact hn.symm
      · rfl
    · rfl

theorem setCellToEmptyBlock_eq : @Aos.setCellToEmptyBlock α = @Mtv.setCellToEmptyBlock α := by
  unfold Aos.setCellToEmptyBlock Mtv.setCellToEmptyBlock
  simp only [setCellToEmptyBlockTop_eq, setCellToEmptyBlockBelow_eq] <;> rfl

theorem setCellToSizeOne_eq : @Aos.setCellToSizeOne α = @Mtv.setCellToSizeOne α := by
  funext i ty x s
  unfold Aos.setCellToSizeOne Mtv.setCellToSizeOne
  simp only [createNewBlockWithNewCell_eq, isNextOfType_eq, deleteElementBlock_eq, ne_eq, ite_not] <;> rfl

theorem setAtEndIntoNext_eq : @Aos.setAtEndIntoNext α = @Mtv.setAtEndIntoNext α := rfl

theorem setImpl_eq : @Aos.setImpl α = @Mtv.setImpl α := by
  unfold Aos.setImpl Mtv.setImpl
  simp only [isPrevOfType_eq, isNextOfType_eq, setCellToMiddle_eq, setCellToTop_eq, setCellToBottom_eq, setCellToEmptyBlock_eq, setCellToSizeOne_eq, setAtEndIntoNext_eq] <;> rfl

theorem lowerBound_eq : @Aos.lowerBound α = @Mtv.lowerBound α := rfl

theorem searchFrom_eq : @Aos.searchFrom α = @Mtv.searchFrom α := by
  unfold Aos.searchFrom Mtv.searchFrom
  simp only [lowerBound_eq] <;> rfl

theorem getBlockPosition_eq : @Aos.getBlockPosition α = @Mtv.getBlockPosition α := by
  unfold Aos.getBlockPosition Mtv.getBlockPosition
  simp only [searchFrom_eq] <;> rfl

theorem walkBack_eq : @Aos.walkBack α = @Mtv.walkBack α := by
  funext row n
  induction n with
  | zero => rfl
  | succ n ih => simp only [walkBack, Mtv.walkBack, ih]

theorem getBlockPositionHint_eq : @Aos.getBlockPositionHint α = @Mtv.getBlockPositionHint α := by
  unfold Aos.getBlockPositionHint Mtv.getBlockPositionHint
  simp only [getBlockPosition_eq, walkBack_eq] <;> rfl

theorem mergeWithNext_eq : @Aos.mergeWithNext α = @Mtv.mergeWithNext α := by
  unfold Aos.mergeWithNext Mtv.mergeWithNext
  simp only [deleteElementBlock_eq] <;> rfl

theorem mergeWithAdjacent_eq : @Aos.mergeWithAdjacent α = @Mtv.mergeWithAdjacent α := by
  funext i s
  unfold Aos.mergeWithAdjacent Mtv.mergeWithAdjacent
  rw [mergeWithNext_eq, deleteElementBlock_eq]
  cases i with
  | zero => rfl
  | succ j =>
    refine bind_congr fun pb s1 h1 => bind_congr fun b s2 h2 => bind_congr fun n s3 h3 => ?_
    obtain ⟨pp, ps, pd⟩ := pb
    obtain ⟨bp, bs, bd⟩ := b
    by_cases hn : j + 1 + 1 < n
    · rw [if_pos hn, if_pos (show j + 1 < n - 1 by omega), bind_eq, bind_eq, bind_eq, getB_ap]
      cases s3.blocks[j + 2]? with
      | none => rfl
      | some nb =>
        obtain ⟨np, ns, nd⟩ := nb
        rcases pd with _ | p <;> rcases bd with _ | d <;> rcases nd with _ | q <;>
          simp [Res.bind, M.pure, Blk.ty, eq_comm]
        all_goals (by_cases hpd : p.ty = d.ty <;> simp [hpd, eq_comm])
    · rw [if_neg hn, if_neg (show ¬ j + 1 < n - 1 by omega), bind_eq]
      rcases pd with _ | p <;> rcases bd with _ | d <;> simp [Res.bind, M.pure, Blk.ty, eq_comm]
      all_goals (by_cases hpd : p.ty = d.ty <;> simp [hpd, eq_comm])

theorem appendToPrev_eq : @Aos.appendToPrev α = @Mtv.appendToPrev α := by
  unfold Aos.appendToPrev Mtv.appendToPrev
  simp only [isPrevOfType_eq] <;> rfl

theorem newBlockAt_eq : @Aos.newBlockAt α = @Mtv.newBlockAt α := rfl

theorem dropOld_eq : @Aos.dropOld α = @Mtv.dropOld α := rfl

theorem keepLower_eq : @Aos.keepLower α = @Mtv.keepLower α := rfl

theorem cutLower_eq : @Aos.cutLower α = @Mtv.cutLower α := rfl

theorem setCellsSingle_eq : @Aos.setCellsSingle α = @Mtv.setCellsSingle α := by
  unfold Aos.setCellsSingle Mtv.setCellsSingle
  simp only [put_eq, again_eq, appendToPrev_eq, deleteElementBlock_eq, mergeWithNext_eq, dropOld_eq, newBlockAt_eq,
    keepLower_eq, cutLower_eq, isNextOfType_eq, setNewBlockToMiddle_eq]

theorem multiHead_eq : @Aos.multiHead α = @Mtv.multiHead α := by
  unfold Aos.multiHead Mtv.multiHead
  simp only [cutLower_eq] <;> rfl

theorem eraseUpper_eq : @Aos.eraseUpper α = @Mtv.eraseUpper α := rfl

theorem multiTail_eq : @Aos.multiTail α = @Mtv.multiTail α := by
  unfold Aos.multiTail Mtv.multiTail
  simp only [eraseUpper_eq] <;> rfl

theorem setCellsMultiNonEqual_eq : @Aos.setCellsMultiNonEqual α = @Mtv.setCellsMultiNonEqual α := by
  unfold Aos.setCellsMultiNonEqual Mtv.setCellsMultiNonEqual
  simp only [deleteElementBlocks_eq, multiHead_eq, multiTail_eq] <;> rfl

theorem multiTailEqual_eq : @Aos.multiTailEqual α = @Mtv.multiTailEqual α := rfl

theorem setCellsMulti_eq : @Aos.setCellsMulti α = @Mtv.setCellsMulti α := by
  unfold Aos.setCellsMulti Mtv.setCellsMulti
  simp only [deleteElementBlocks_eq, setCellsMultiNonEqual_eq, multiTailEqual_eq] <;> rfl

theorem setCellsImpl_eq : @Aos.setCellsImpl α = @Mtv.setCellsImpl α := by
  unfold Aos.setCellsImpl Mtv.setCellsImpl
  simp only [getBlockPosition_eq, setCellsSingle_eq, setCellsMulti_eq] <;> rfl

theorem moveLower_eq : @Aos.moveLower α = @Mtv.moveLower α := rfl

theorem insertCellsToMiddle_eq : @Aos.insertCellsToMiddle α = @Mtv.insertCellsToMiddle α := by
  unfold Aos.insertCellsToMiddle Mtv.insertCellsToMiddle
  simp only [calc_eq, calc2_eq, comm_eq, newBlockAt_eq, moveLower_eq]

theorem growCur_eq : @Aos.growCur α = @Mtv.growCur α := rfl

theorem insertIntoPrev_eq : @Aos.insertIntoPrev α = @Mtv.insertIntoPrev α := by
  unfold Aos.insertIntoPrev Mtv.insertIntoPrev
  simp only [growCur_eq] <;> rfl

theorem overwriteIf_eq : @Aos.overwriteIf α = @Mtv.overwriteIf α := rfl

theorem forgetIf_eq : @Aos.forgetIf α = @Mtv.forgetIf α := rfl

theorem setWholeBlockEmpty_eq : @Aos.setWholeBlockEmpty α = @Mtv.setWholeBlockEmpty α := by
  unfold Aos.setWholeBlockEmpty Mtv.setWholeBlockEmpty
  simp only [deleteElementBlock_eq, isPrevOfType_eq, isNextOfType_eq, forgetIf_eq] <;> rfl

theorem setEmptySingle_eq : @Aos.setEmptySingle α = @Mtv.setEmptySingle α := by
  unfold Aos.setEmptySingle Mtv.setEmptySingle
  simp only [isPrevOfType_eq, isNextOfType_eq, setNewBlockToMiddle_eq, overwriteIf_eq, setWholeBlockEmpty_eq] <;> rfl

theorem emptyHead_eq : @Aos.emptyHead α = @Mtv.emptyHead α := by
  funext row i1 ow s
  unfold Aos.emptyHead Mtv.emptyHead
  simp only [forgetIf_eq, deleteElementBlock_eq, overwriteIf_eq]
  refine bind_congr fun b s1 h1 => ?_
  obtain ⟨bp, bs, bd⟩ := b
  cases bd
  · rfl
  · dsimp only
    split
    · cases i1 with
      | zero => rfl
      | succ j =>
        simp only [bind_eq, Mtv.isPrevOfType, getB_ap, Nat.add_sub_cancel]
        cases hb : s1.blocks[j]? with
        | none => rfl
        | some pb =>
          obtain ⟨pp, ps, pd⟩ := pb
          cases pd <;> simp [Res.bind, M.pure, Blk.ty, hb, getB_ap]
    · rfl

theorem emptyTail_eq : @Aos.emptyTail α = @Mtv.emptyTail α := by
  funext row i1 ow s
  unfold Aos.emptyTail Mtv.emptyTail
  simp only [overwriteIf_eq]
  refine bind_congr fun b s1 h1 => ?_
  obtain ⟨bp, bs, bd⟩ := b
  cases bd
  · rfl
  · dsimp only
    split
    · have hlt : i1 < s1.blocks.length := by
        rw [getB_ap] at h1
        split at h1 <;> cases h1
        rename_i hb
        exact lt_of_get hb
      simp only [bind_eq, Mtv.isNextOfType, nBlocks_ap, Res.bind]
      by_cases hn : i1 + 1 = s1.blocks.length
      · rw [if_pos hn, if_neg (by omega)]
        rfl
      · rw [if_neg hn, if_pos (by omega)]
        simp only [bind_eq, getB_ap, List.getElem?_eq_getElem (show i1 + 1 < s1.blocks.length by omega), Res.bind, M.pure]
        cases hd : (s1.blocks[i1 + 1]'(by omega)).data <;>
          simp [Blk.ty, hd, getB_ap, bind_eq, List.getElem?_eq_getElem (show i1 + 1 < s1.blocks.length by omega), Res.bind, M.pure]
    · rfl

theorem emptyMid_eq : @Aos.emptyMid α = @Mtv.emptyMid α := by
  funext ow i n
  induction n generalizing i with
  | zero => rfl
  | succ n ih => simp only [emptyMid, Mtv.emptyMid, forgetIf_eq, deleteElementBlock_eq, ih]

theorem setEmptyMulti_eq : @Aos.setEmptyMulti α = @Mtv.setEmptyMulti α := by
  unfold Aos.setEmptyMulti Mtv.setEmptyMulti
  simp only [emptyHead_eq, emptyTail_eq, emptyMid_eq] <;> rfl

theorem setEmptyImpl_eq : @Aos.setEmptyImpl α = @Mtv.setEmptyImpl α := by
  unfold Aos.setEmptyImpl Mtv.setEmptyImpl
  simp only [getBlockPosition_eq, setEmptySingle_eq, setEmptyMulti_eq] <;> rfl

theorem shrinkCur_eq : @Aos.shrinkCur α = @Mtv.shrinkCur α := rfl

theorem eraseData_eq : @Aos.eraseData α = @Mtv.eraseData α := rfl

theorem eraseMerge_eq : @Aos.eraseMerge α = @Mtv.eraseMerge α := by
  unfold Aos.eraseMerge Mtv.eraseMerge
  simp only [deleteElementBlock_eq] <;> rfl

theorem eraseSingle_eq : @Aos.eraseSingle α = @Mtv.eraseSingle α := by
  unfold Aos.eraseSingle Mtv.eraseSingle
  simp only [deleteElementBlock_eq, shrinkCur_eq, eraseData_eq, eraseMerge_eq] <;> rfl

theorem eraseHead_eq : @Aos.eraseHead α = @Mtv.eraseHead α := by
  unfold Aos.eraseHead Mtv.eraseHead
  simp only [cutLower_eq] <;> rfl

theorem eraseTail_eq : @Aos.eraseTail α = @Mtv.eraseTail α := by
  unfold Aos.eraseTail Mtv.eraseTail
  simp only [eraseData_eq] <;> rfl

theorem eraseBlocks_eq : @Aos.eraseBlocks α = @Mtv.eraseBlocks α := by
  unfold Aos.eraseBlocks Mtv.eraseBlocks
  simp only [deleteElementBlocks_eq, shrinkCur_eq, eraseHead_eq, eraseTail_eq] <;> rfl

theorem eraseMulti_eq : @Aos.eraseMulti α = @Mtv.eraseMulti α := by
  unfold Aos.eraseMulti Mtv.eraseMulti
  simp only [mergeWithNext_eq, eraseBlocks_eq] <;> rfl

theorem eraseImpl_eq : @Aos.eraseImpl α = @Mtv.eraseImpl α := by
  unfold Aos.eraseImpl Mtv.eraseImpl
  simp only [getBlockPosition_eq, eraseSingle_eq, eraseMulti_eq] <;> rfl

theorem erase_eq : @Aos.erase α = @Mtv.erase α := by
  unfold Aos.erase Mtv.erase
  simp only [eraseImpl_eq] <;> rfl

theorem insertEmptyImpl_eq : @Aos.insertEmptyImpl α = @Mtv.insertEmptyImpl α := by
  unfold Aos.insertEmptyImpl Mtv.insertEmptyImpl
  simp only [calc_eq, calc2_eq, growCur_eq, isPrevOfType_eq] <;> rfl

theorem pushBack_eq : @Aos.pushBack α = @Mtv.pushBack α := by
  unfold Aos.pushBack Mtv.pushBack
  simp only [createNewBlockWithNewCell_eq, growCur_eq] <;> rfl

theorem appendEmpty_eq : @Aos.appendEmpty α = @Mtv.appendEmpty α := by
  unfold Aos.appendEmpty Mtv.appendEmpty
  simp only [growCur_eq] <;> rfl

theorem pushBackEmpty_eq : @Aos.pushBackEmpty α = @Mtv.pushBackEmpty α := by
  unfold Aos.pushBackEmpty Mtv.pushBackEmpty
  simp only [appendEmpty_eq] <;> rfl

theorem clear_eq : @Aos.clear α = @Mtv.clear α := by
  unfold Aos.clear Mtv.clear
  simp only [deleteElementBlocks_eq] <;> rfl

theorem resizeCut_eq : @Aos.resizeCut α = @Mtv.resizeCut α := rfl

theorem resize_eq : @Aos.resize α = @Mtv.resize α := by
  unfold Aos.resize Mtv.resize
  simp only [deleteElementBlocks_eq, getBlockPosition_eq, appendEmpty_eq, clear_eq, resizeCut_eq] <;> rfl

theorem lookup_eq : @Aos.lookup α = @Mtv.lookup α := by
  unfold Aos.lookup Mtv.lookup
  simp only [getBlockPosition_eq, getBlockPositionHint_eq] <;> rfl

theorem set_eq : @Aos.set α = @Mtv.set α := by
  unfold Aos.set Mtv.set
  simp only [setImpl_eq, lookup_eq] <;> rfl

theorem setRange_eq : @Aos.setRange α = @Mtv.setRange α := by
  unfold Aos.setRange Mtv.setRange
  simp only [setCellsImpl_eq, lookup_eq] <;> rfl

theorem setEmpty_eq : @Aos.setEmpty α = @Mtv.setEmpty α := by
  unfold Aos.setEmpty Mtv.setEmpty
  simp only [setEmptyImpl_eq, lookup_eq] <;> rfl

theorem releaseRange_eq : @Aos.releaseRange α = @Mtv.releaseRange α := by
  unfold Aos.releaseRange Mtv.releaseRange
  simp only [setEmptyImpl_eq, lookup_eq] <;> rfl

theorem insertEmpty_eq : @Aos.insertEmpty α = @Mtv.insertEmpty α := by
  unfold Aos.insertEmpty Mtv.insertEmpty
  simp only [insertEmptyImpl_eq, lookup_eq] <;> rfl

theorem releaseImpl_eq : @Aos.releaseImpl α = @Mtv.releaseImpl α := by
  unfold Aos.releaseImpl Mtv.releaseImpl
  simp only [setEmptySingle_eq] <;> rfl

theorem release_eq : @Aos.release α = @Mtv.release α := by
  unfold Aos.release Mtv.release
  simp only [lookup_eq, releaseImpl_eq] <;> rfl

theorem releaseBlock_below {k : Nat} {s t : St α} (h : Below k s t) :
    (∃ s' t', releaseBlock k s = .ok ((), s') ∧ Mtv.releaseBlock k t = .ok ((), t') ∧ Below (k + 1) s' t') ∨
      (releaseBlock k s = .ub ∧ Mtv.releaseBlock k t = .ub) := by
  obtain ⟨h1, h2, h3, h4, h5, h6⟩ := h
  obtain ⟨bs, cur, fr, ev, nx⟩ := s
  obtain ⟨cs, cur', fr', ev', nx'⟩ := t
  dsimp only at h1 h2 h3 h4 h5 h6
  subst h1 h2 h3 h4
  unfold releaseBlock Mtv.releaseBlock
  simp only [bind_eq, getB_ap]
  have hk := h6 k (Nat.le_refl k)
  cases hb : bs[k]? with
  | none => exact .inr ⟨rfl, by rw [← hk, hb]; rfl⟩
  | some b =>
    obtain ⟨p, n, d⟩ := b
    have hlt := lt_of_get hb
    refine .inl ?_
    rw [← hk, hb]
    cases d with
    | none =>
      exact ⟨_, _, rfl, rfl, rfl, rfl, rfl, rfl, h5, fun i hi => h6 i (by omega)⟩
    | some d =>
      refine ⟨⟨bs.set k ⟨p, n, some { d with vals := [] }⟩, cur, fr, ev ++ [.rel d.id], nx⟩,
        ⟨cs.set k ⟨p, n, none⟩, cur, fr, ev ++ [.rel d.id], nx⟩, ?_, ?_, rfl, rfl, rfl, rfl, ?_, ?_⟩
      · have hg : ∀ c, (bs.set k c)[k]? = some c := fun c => List.getElem?_set_self hlt
        simp only [Res.bind, shrinkVals_ap, deref_ap, putVals_ap, updB_ap, hb, Option.bind_some, Nat.zero_le, if_true, List.take_zero, hg,
          bind_eq, getB_ap, Option.map_some, released, deleteBlock, free, M.pure, List.map_nil, List.append_nil]
      · have hc := hk ▸ hb
        have hg : ∀ c, (cs.set k c)[k]? = some c := fun c => List.getElem?_set_self (lt_of_get hc)
        simp only [Res.bind, shrinkVals_ap, deref_ap, putVals_ap, updB_ap, hc, Option.bind_some, Nat.zero_le, if_true, List.take_zero, hg,
          bind_eq, Mtv.deleteElementBlock, getB_ap, Option.map_some, released, deleteBlock, free, M.pure, List.map_nil, List.append_nil,
          setData_ap, List.set_set]
      · simp [h5]
      · intro i hi
        simp only [List.getElem?_set]
        rw [if_neg (by omega), if_neg (by omega)]
        exact h6 i (by omega)

theorem releaseBlocks_below (n : Nat) {k : Nat} {s t : St α} (h : Below k s t) :
    (∃ s' t', releaseBlocks k n s = .ok ((), s') ∧ Mtv.releaseBlocks k n t = .ok ((), t') ∧ Below (k + n) s' t') ∨
      (releaseBlocks k n s = .ub ∧ Mtv.releaseBlocks k n t = .ub) := by
  induction n generalizing k s t with
  | zero => exact .inl ⟨s, t, rfl, rfl, h⟩
  | succ n ih =>
    unfold releaseBlocks Mtv.releaseBlocks
    simp only [bind_eq]
    rcases releaseBlock_below h with ⟨s', t', e1, e2, h'⟩ | ⟨e1, e2⟩
    · rw [e1, e2]
      have := ih h'
      rw [show k + (n + 1) = k + 1 + n by omega]
      exact this
    · rw [e1, e2]
      exact .inr ⟨rfl, rfl⟩

theorem releaseAll_eq : @Aos.releaseAll α = @Mtv.releaseAll α := by
  funext s
  unfold Aos.releaseAll Mtv.releaseAll
  simp only [bind_eq, nBlocks_ap, Res.bind]
  rcases releaseBlocks_below s.blocks.length (k := 0) (s := s) (t := s) ⟨rfl, rfl, rfl, rfl, rfl, fun _ _ => rfl⟩ with
    ⟨⟨bs, cur, fr, ev, nx⟩, ⟨cs, cur', fr', ev', nx'⟩, e1, e2, h1, h2, h3, h4, h5, h6⟩ | ⟨e1, e2⟩
  · rw [e1, e2]
    dsimp only at h1 h2 h3 h4 h5 h6
    subst h1 h2 h3 h4
    have hd : delAt bs 0 s.blocks.length = delAt cs 0 s.blocks.length := by
      unfold delAt
      refine List.ext_getElem? fun i => ?_
      simp only [List.take_zero, List.nil_append, List.getElem?_drop]
      exact h6 _ (by omega)
    simp only [delB_ap, h5, hd]
  · rw [e1, e2]

theorem get_eq : @Aos.get α = @Mtv.get α := by
  unfold Aos.get Mtv.get
  simp only [getBlockPosition_eq] <;> rfl

theorem getType_eq : @Aos.getType α = @Mtv.getType α := by
  unfold Aos.getType Mtv.getType
  simp only [getBlockPosition_eq] <;> rfl

theorem isEmpty_eq : @Aos.isEmpty α = @Mtv.isEmpty α := by
  unfold Aos.isEmpty Mtv.isEmpty
  simp only [getBlockPosition_eq] <;> rfl

theorem position_eq : @Aos.position α = @Mtv.position α := by
  unfold Aos.position Mtv.position
  simp only [lookup_eq] <;> rfl

theorem nextPosition_eq : @Aos.nextPosition α = @Mtv.nextPosition α := rfl

theorem logicalPosition_eq : @Aos.logicalPosition α = @Mtv.logicalPosition α := rfl

theorem getAt_eq : @Aos.getAt α = @Mtv.getAt α := rfl

theorem slotFor_eq : @Aos.slotFor α = @Mtv.slotFor α := by
  unfold Aos.slotFor Mtv.slotFor
  simp only [put_eq, calc_eq, calc2_eq]

theorem receive_eq : @Aos.receive α = @Mtv.receive α := rfl

theorem handOver_eq : @Aos.handOver α = @Mtv.handOver α := rfl

theorem transferSingle_eq : @Aos.transferSingle α = @Mtv.transferSingle α := by
  unfold Aos.transferSingle Mtv.transferSingle
  simp only [mergeWithAdjacent_eq, newBlockAt_eq, setEmptySingle_eq, setEmpty_eq, slotFor_eq, receive_eq, handOver_eq] <;> rfl

theorem slotsFor_eq : @Aos.slotsFor α = @Mtv.slotsFor α := by
  unfold Aos.slotsFor Mtv.slotsFor
  simp only [nextPos_bind, deleteElementBlock_eq]

theorem moveFirst_eq : @Aos.moveFirst α = @Mtv.moveFirst α := by
  funext a i1 j
  unfold Aos.moveFirst Mtv.moveFirst
  simp only [place_eq, onDst_bind, assoc2, Mtv.movePointer, newBlockAt_eq]
  cases j with
  | zero => rfl
  | succ k =>
    simp only [calc0_eq]
    rfl

theorem moveMid_eq : @Aos.moveMid α = @Mtv.moveMid α := by
  funext i j n position
  induction n generalizing i j position with
  | zero => rfl
  | succ n ih =>
    simp only [Aos.moveMid, Mtv.moveMid, Mtv.movePointer, copy_eq, onDst_bind, assoc2, comm2, ih]
    rfl

theorem moveLast_eq (e i2 j : Nat) : (Aos.moveLast e i2 (j + 1) : M2 α Bool) = Mtv.moveLast e i2 (j + 1) := by
  unfold Aos.moveLast Mtv.moveLast
  simp only [place_eq, onDst_bind, assoc2, Mtv.movePointer, newBlockAt_eq, calc0_eq]
  rfl

theorem fillGap_eq : @Aos.fillGap α = @Mtv.fillGap α := by
  funext del1 del2 len s
  unfold Aos.fillGap Mtv.fillGap
  simp only [mergeWithAdjacent_eq]
  refine bind_congr fun pe s1 h1 => bind_congr fun d s2 h2 => ?_
  have hc : ∀ (k : Unit → M α Nat), ((match d - 1 with
      | 0 => setPos 0 0
      | k + 1 => do
        let p ← nextPos k
        setPos (k + 1) p) >>= k) = (calcPos (d - 1) >>= k) := by
    intro k
    rcases d - 1 with _ | m
    · rfl
    · simp only [calc0_eq]
  split
  · refine bind_congr fun _ s3 h3 => bind_congr fun _ s4 h4 => congrFun (hc _) s4
  · refine bind_congr fun _ s3 h3 => bind_congr fun _ s4 h4 => congrFun (hc _) s4

theorem closeGap_eq (i1 i2 len : Nat) (keep1 keep2 : Bool) (h : i1 < i2) :
    (Aos.closeGap i1 i2 len keep1 keep2 : M α Nat) = Mtv.closeGap i1 i2 len keep1 keep2 := by
  unfold Aos.closeGap Mtv.closeGap
  rw [fillGap_eq]
  by_cases hd : (if keep2 then i2 - 1 else i2) < (if keep1 then i1 + 1 else i1)
  · have : i2 = i1 + 1 := by
      split at hd <;> split at hd <;> omega
    subst this
    simp only [put_eq]
    rfl
  · simp only [if_neg hd]

theorem transferMulti_eq (a e i1 i2 dpos : Nat) (h : i1 < i2) :
    (Aos.transferMulti a e i1 i2 dpos : M2 α Nat) = Mtv.transferMulti a e i1 i2 dpos := by
  funext s t
  unfold Aos.transferMulti Mtv.transferMulti
  simp only [setEmpty_eq, slotsFor_eq, moveFirst_eq, moveMid_eq, mergeWithAdjacent_eq, closeGap_eq _ _ _ _ _ h]
  refine bind2_congr fun r s1 t1 h1 => bind2_congr fun j s2 t2 h2 => bind2_congr fun k s3 t3 h3 => ?_
  refine bind2_congr fun p s4 t4 h4 => bind2_congr fun u s5 t5 h5 => ?_
  rw [show j + (i2 - i1 + 1) - 1 = j + (i2 - i1 - 1) + 1 by omega, moveLast_eq]

theorem position_ge {row i k : Nat} {s s' : St α} (h : Mtv.getBlockPosition row i s = .ok (k, s'))
    (hk : k ≠ s.blocks.length) : i ≤ k := by
  unfold Mtv.getBlockPosition at h
  simp only [bind_eq, curSize_ap, nBlocks_ap, Res.bind] at h
  split at h
  · cases h
    exact absurd rfl hk
  · unfold Mtv.searchFrom at h
    dsimp only at h
    split at h
    · split at h
      · split at h
        · cases h
        · cases h; omega
      · cases h; omega
    · split at h
      · cases h
      · cases h; omega

theorem position_state {row i k : Nat} {s s' : St α} (h : Mtv.getBlockPosition row i s = .ok (k, s')) : s' = s := by
  unfold Mtv.getBlockPosition at h
  simp only [bind_eq, curSize_ap, nBlocks_ap, Res.bind] at h
  split at h
  · cases h; rfl
  · unfold Mtv.searchFrom at h
    dsimp only at h
    split at h
    · split at h
      · split at h
        · cases h
        · cases h; rfl
      · cases h; rfl
    · split at h
      · cases h
      · cases h; rfl

theorem onSrc_ok {x : M α β} {s t s' t' : St α} {b : β} (h : onSrc x s t = .ok b s' t') : x s = .ok (b, s') ∧ t' = t := by
  unfold onSrc at h
  split at h
  · rename_i hx; cases h; exact ⟨hx, rfl⟩
  · cases h
  · cases h

theorem onDst_ok {x : M α β} {s t s' t' : St α} {b : β} (h : onDst x s t = .ok b s' t') : x t = .ok (b, t') ∧ s' = s := by
  unfold onDst at h
  split at h
  · rename_i hx; cases h; exact ⟨hx, rfl⟩
  · cases h
  · cases h

/-- The second of two block indices found is not before the first one. -/
theorem src_ge {row i k n : Nat} {s t s' t' s'' t'' : St α} (h : onSrc (Mtv.getBlockPosition row i) s t = .ok k s' t')
    (hn : onSrc nBlocks s' t' = .ok n s'' t'') (hk : k ≠ n) : i ≤ k := by
  obtain ⟨h1, -⟩ := onSrc_ok h
  obtain ⟨h2, -⟩ := onSrc_ok hn
  have := position_state h1
  subst this
  cases h2
  exact position_ge h1 hk

theorem transferImpl_eq : @Aos.transferImpl α = @Mtv.transferImpl α := by
  funext a e i1 dpos s t
  unfold Aos.transferImpl Mtv.transferImpl
  simp only [getBlockPosition_eq, transferSingle_eq]
  split
  · rfl
  · refine bind2_congr fun i2 s1 t1 h1 => bind2_congr fun n s2 t2 h2 => ?_
    split
    · rfl
    · rename_i hn
      refine bind2_congr fun d s3 t3 h3 => ?_
      split
      · rfl
      · split
        · rfl
        · rename_i hi
          have := src_ge h1 h2 hn
          rw [transferMulti_eq _ _ _ _ _ (by omega)]

theorem transfer_eq (h : At) (a e dpos : Nat) : (Aos.transfer h a e dpos : M2 α Nat) = Mtv.transfer false h a e dpos := by
  unfold Aos.transfer Mtv.transfer
  simp only [lookup_eq, transferImpl_eq]
  rfl

theorem exchangeOne_eq : @Aos.exchangeOne α = @Mtv.exchangeOne α := by
  unfold Aos.exchangeOne Mtv.exchangeOne
  simp only [deleteElementBlock_eq, isPrevOfType_eq, isNextOfType_eq, setNewBlockToMiddle_eq, newBlockAt_eq] <;> rfl

theorem takeIn_eq : @Aos.takeIn α = @Mtv.takeIn α := by
  unfold Aos.takeIn Mtv.takeIn
  simp only [put_eq, isPrevOfType_eq, isNextOfType_eq, receive_eq, setNewBlockToMiddle_eq] <;> rfl

theorem swapSingle_eq : @Aos.swapSingle α = @Mtv.swapSingle α := by
  unfold Aos.swapSingle Mtv.swapSingle
  simp only [mergeWithAdjacent_eq, receive_eq, transferSingle_eq, exchangeOne_eq, takeIn_eq] <;> rfl

theorem collect_eq : @Aos.collect α = @Mtv.collect α := by
  funext i n
  induction n generalizing i with
  | zero => rfl
  | succ n ih => simp only [collect, Mtv.collect, ih]; rfl

theorem copyLower_eq : @Aos.copyLower α = @Mtv.copyLower α := rfl

theorem copyUpper_eq : @Aos.copyUpper α = @Mtv.copyUpper α := rfl

theorem prepare_eq : @Aos.prepare α = @Mtv.prepare α := by
  unfold Aos.prepare Mtv.prepare
  simp only [collect_eq, copyLower_eq, copyUpper_eq] <;> rfl

theorem layOut_eq : @Aos.layOut α = @Mtv.layOut α := by
  funext p bs
  induction bs generalizing p with
  | nil => rfl
  | cons b bs ih => simp only [layOut, Mtv.layOut, ih]; rfl

theorem insertBlocksAt_eq : @Aos.insertBlocksAt α = @Mtv.insertBlocksAt α := by
  unfold Aos.insertBlocksAt Mtv.insertBlocksAt
  simp only [position_eq, layOut_eq] <;> rfl

theorem exchangeMany_eq : @Aos.exchangeMany α = @Mtv.exchangeMany α := by
  unfold Aos.exchangeMany Mtv.exchangeMany
  simp only [prepare_eq, newBlockAt_eq, mergeWithAdjacent_eq]
  funext ty vs j1 off1 j2 off2 len s
  refine bind_congr fun b s1 h1 => bind_congr fun u s2 h2 => ?_
  rcases hb : b.1 with _ | k
  · rfl
  · simp only [calc0_eq, gt_iff_lt, Nat.zero_lt_succ, if_true]

theorem placeBlocks_eq : @Aos.placeBlocks α = @Mtv.placeBlocks α := by
  unfold Aos.placeBlocks Mtv.placeBlocks
  simp only [mergeWithNext_eq, position_eq, insertBlocksAt_eq] <;> rfl

theorem swapSingleMulti_eq (a e dpos i j1 j2 : Nat) (h : j1 < j2) :
    (Aos.swapSingleMulti a e dpos i j1 j2 : M2 α Unit) = Mtv.swapSingleMulti a e dpos i j1 j2 := by
  unfold Aos.swapSingleMulti Mtv.swapSingleMulti
  simp only [transferMulti_eq _ _ _ _ _ h, exchangeMany_eq, deleteElementBlock_eq, placeBlocks_eq, setNewBlockToMiddle_eq,
    srcPos_bind] <;> rfl

theorem gapPosition_eq : @Aos.gapPosition α = @Mtv.gapPosition α := by
  funext i
  cases i <;> rfl

theorem swapMultiMulti_eq : @Aos.swapMultiMulti α = @Mtv.swapMultiMulti α := by
  unfold Aos.swapMultiMulti Mtv.swapMultiMulti
  simp only [prepare_eq, placeBlocks_eq, gapPosition_eq] <;> rfl

theorem swapImpl_eq (a e dpos i1 i2 j1 j2 : Nat) (hi : i1 ≤ i2) (hj : j1 ≤ j2) :
    (Aos.swapImpl a e dpos i1 i2 j1 j2 : M2 α Unit) = Mtv.swapImpl a e dpos i1 i2 j1 j2 := by
  unfold Aos.swapImpl Mtv.swapImpl
  rw [swapSingle_eq, swapMultiMulti_eq]
  split
  · split
    · rfl
    · rw [swapSingleMulti_eq _ _ _ _ _ _ (by omega)]
  · split
    · rw [swapSingleMulti_eq _ _ _ _ _ _ (by omega)]
    · rfl

theorem swapRange_eq : @Aos.swapRange α = @Mtv.swapRange α := by
  funext a e dpos s t
  unfold Aos.swapRange Mtv.swapRange
  simp only [getBlockPosition_eq]
  split
  · rfl
  · refine bind2_congr fun n s1 t1 h1 => bind2_congr fun m s2 t2 h2 => ?_
    split
    · rfl
    · refine bind2_congr fun i1 s3 t3 h3 => bind2_congr fun k s4 t4 h4 => ?_
      split
      · rfl
      · refine bind2_congr fun i2 s5 t5 h5 => ?_
        split
        · rfl
        · rename_i hi2
          refine bind2_congr fun j1 s6 t6 h6 => bind2_congr fun l s7 t7 h7 => ?_
          split
          · rfl
          · refine bind2_congr fun j2 s8 t8 h8 => ?_
            split
            · rfl
            · rename_i hj2
              rw [swapImpl_eq]
              · obtain ⟨g4, rfl⟩ := onSrc_ok h4
                obtain ⟨g5, -⟩ := onSrc_ok h5
                cases g4
                exact position_ge g5 hi2
              · obtain ⟨g7, rfl⟩ := onDst_ok h7
                obtain ⟨g8, -⟩ := onDst_ok h8
                cases g7
                exact position_ge g8 hj2

theorem swapAll_eq : @Aos.swapAll α = @Mtv.swapAll α := rfl

end Mdds.Aos
