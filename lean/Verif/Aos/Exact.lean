import Verif.Aos.Blind

/-!
# Equal event logs

Where no call misreports, the two models run in exactly the same way, event logs included.
-/

namespace Mdds.Aos
open Mdds Mdds.Mtv

variable {α β γ : Type}

/-- A function that leaves the container as it is. -/
structure Reads (x : M α β) : Prop where
  keep : ∀ s r s', x s = .ok (r, s') → s' = s

theorem Reads.bind {x : M α β} {f : β → M α γ} (h : Reads x) (k : ∀ b, Reads (f b)) : Reads (x >>= f) := by
  constructor
  intro s r s' hs
  change (x s).bind _ = _ at hs
  cases hx : x s with
  | ok p =>
    rw [hx] at hs
    have h1 := h.keep s p.1 p.2 hx
    rw [← h1]
    exact (k p.1).keep _ _ _ hs
  | err e t => rw [hx] at hs; cases hs
  | ub => rw [hx] at hs; cases hs

theorem pure_reads (b : β) : Reads (M.pure b : M α β) := ⟨fun s r s' h => by cases h; rfl⟩
theorem pure'_reads (b : β) : Reads (Pure.pure b : M α β) := ⟨fun s r s' h => by cases h; rfl⟩
theorem ub_reads : Reads (ub_ : M α β) := ⟨fun s r s' h => by cases h⟩
theorem nBlocks_reads : Reads (nBlocks : M α Nat) := ⟨fun s r s' h => by cases h; rfl⟩
theorem curSize_reads : Reads (curSize : M α Nat) := ⟨fun s r s' h => by cases h; rfl⟩
theorem getB_reads (i : Nat) : Reads (getB i : M α (Blk α)) := ⟨fun s r s' h => by
  unfold getB at h
  split at h <;> cases h
  rfl⟩
theorem getBlockPosition_reads (row i : Nat) : Reads (Mtv.getBlockPosition row i : M α Nat) :=
  ⟨fun _ _ _ h => position_state h⟩

theorem walkBack_reads (row k : Nat) : Reads (Mtv.walkBack row k : M α (Option Nat)) := by
  induction k with
  | zero => unfold Mtv.walkBack; exact pure_reads _
  | succ k ih =>
    unfold Mtv.walkBack
    refine Reads.bind (getB_reads _) fun b => ?_
    split
    · exact pure_reads _
    · exact ih

theorem getBlockPositionHint_reads (h : Option Nat) (row : Nat) : Reads (Mtv.getBlockPositionHint h row : M α Nat) := by
  unfold Mtv.getBlockPositionHint
  dsimp only
  repeat' first
    | with_reducible apply Reads.bind | intro _ | with_reducible apply getB_reads
    | with_reducible apply nBlocks_reads | with_reducible apply curSize_reads
    | with_reducible apply getBlockPosition_reads | with_reducible apply walkBack_reads
    | with_reducible apply pure_reads | with_reducible apply pure'_reads | with_reducible apply ub_reads | split

theorem lookup_reads (h : At) (pos : Nat) : Reads (Mtv.lookup h pos : M α Nat) := by
  unfold Mtv.lookup
  split
  · exact getBlockPosition_reads _ _
  · exact getBlockPositionHint_reads _ _

theorem insertCellsImpl_same {row i : Nat} {ty : Ty} {vs : List α} {s : St α} (h : Mtv.At) (hm : ¬ Misreports s (.insert h row ty vs)) :
    Aos.insertCellsImpl row i ty vs s = Mtv.insertCellsImpl row i ty vs s := by
  unfold Aos.insertCellsImpl Mtv.insertCellsImpl
  rw [insertIntoPrev_eq, newBlockAt_eq, growCur_eq, insertCellsToMiddle_eq, isPrevOfType_eq]
  simp only [bind_eq, getB_ap, nBlocks_ap]
  cases hb : s.blocks[i]? with
  | none => simp only [Res.bind]
  | some b =>
    obtain ⟨bp, bs, bd⟩ := b
    simp only [Res.bind]
    by_cases hv : vs.length = 0
    · simp only [hv, if_true]
    simp only [hv, if_false]
    cases bd with
    | none => dsimp only
    | some d =>
      dsimp only
      by_cases ht : ty = d.ty
      · simp only [ht, if_true]
      simp only [ht, if_false]
      by_cases hr : row = bp
      · simp only [hr, if_true]
        cases i with
        | zero =>
          exfalso
          refine hm ⟨fun k => hv (by rw [k]; rfl), 0, _, d, hb, hr.symm, rfl, fun k => ht k.symm, ?_⟩
          intro j p e hj
          omega
        | succ j =>
          simp only [bind_eq, isPrevOfType_succ, getB_ap]
          cases hp : s.blocks[j]? with
          | none => simp only [Res.bind]
          | some p =>
            simp only [Res.bind]
            by_cases hpt : some ty = p.ty
            · simp only [hpt, decide_true, if_true]
            · exfalso
              refine hm ⟨fun k => hv (by rw [k]; rfl), j + 1, _, d, hb, hr.symm, rfl, fun k => ht k.symm, ?_⟩
              intro j' p' e hj hp' he k
              obtain rfl : j = j' := by omega
              rw [hp] at hp'
              cases hp'
              exact hpt (by rw [Blk.ty, he, ← k]; rfl)
      · simp only [hr, if_false]

theorem insert_same {h : At} {pos : Nat} {ty : Ty} {vs : List α} {s : St α} (hm : ¬ Misreports s (.insert h pos ty vs)) :
    Aos.insert h pos ty vs s = Mtv.insert h pos ty vs s := by
  unfold Aos.insert Mtv.insert
  rw [lookup_eq]
  simp only [bind_eq, nBlocks_ap]
  cases hl : Mtv.lookup h pos s with
  | ok p =>
    obtain ⟨i, s'⟩ := p
    have := (lookup_reads h pos).keep _ _ _ hl
    subst this
    simp only [Res.bind]
    by_cases hi : i = s'.blocks.length
    · simp only [hi, if_true]
    · simp only [hi, if_false]
      exact insertCellsImpl_same h hm
  | err e t => simp only [Res.bind]
  | ub => simp only [Res.bind]

theorem callRun_same {c : Call α} {s : St α} (hm : ¬ Misreports s c) : callRun c s = c.run s := by
  cases c with
  | insert h pos ty vs =>
    unfold callRun Call.run
    simp only [bind_eq]
    rw [insert_same hm]
  | set => unfold callRun Call.run; dsimp only; rw [set_eq]
  | setRange => unfold callRun Call.run; dsimp only; rw [setRange_eq]
  | insertEmpty => unfold callRun Call.run; dsimp only; rw [insertEmpty_eq]
  | setEmpty => unfold callRun Call.run; dsimp only; rw [setEmpty_eq]
  | erase => unfold callRun Call.run; dsimp only; rw [erase_eq]
  | pushBack => unfold callRun Call.run; dsimp only; rw [pushBack_eq]
  | pushBackEmpty => unfold callRun Call.run; dsimp only; rw [pushBackEmpty_eq]
  | resize => unfold callRun Call.run; dsimp only; rw [Aos.resize_eq]
  | clear => unfold callRun Call.run; dsimp only; rw [clear_eq]
  | release => unfold callRun Call.run; dsimp only; rw [release_eq]
  | releaseRange => unfold callRun Call.run; dsimp only; rw [releaseRange_eq]
  | releaseAll => unfold callRun Call.run; dsimp only; rw [releaseAll_eq]

theorem op_same {o : Op α} {s : St α} (hm : ∀ c, o = .call c → ¬ Misreports s c) : o.aos s = o.soa s := by
  cases o with
  | call c =>
    unfold Op.aos Op.soa
    simp only [bind_eq]
    rw [callRun_same (hm c rfl)]
  | size => rfl
  | blockSize => rfl
  | get => unfold Op.aos Op.soa; dsimp only; rw [get_eq]
  | type => unfold Op.aos Op.soa; dsimp only; rw [getType_eq]
  | isEmpty => unfold Op.aos Op.soa; dsimp only; rw [isEmpty_eq]
  | position => unfold Op.aos Op.soa; dsimp only; rw [position_eq]
  | next => unfold Op.aos Op.soa; dsimp only; rw [nextPosition_eq]
  | logical => unfold Op.aos Op.soa; dsimp only; rw [logicalPosition_eq]
  | valueAt => unfold Op.aos Op.soa; dsimp only; rw [getAt_eq]

theorem history_same (os : List (Op α)) : ∀ s : St α, Truthful os s → history Op.aos os s = history Op.soa os s := by
  induction os with
  | nil => intro s _; simp only [history]
  | cons o os ih =>
    intro s h
    obtain ⟨h1, h2⟩ := h
    simp only [history, op_same h1]
    cases hx : o.soa s <;> rw [hx] at h2 <;> dsimp only at h2 ⊢
    · rw [ih _ h2]
    · rw [ih _ h2]

theorem op2_same {o : Op2 α} {s t : St α}
    (hm : ∀ c, (o = .onA (.call c) → ¬ Misreports s c) ∧ (o = .onB (.call c) → ¬ Misreports t c)) :
    o.aos s t = o.soa s t := by
  cases o with
  | onA o =>
    unfold Op2.aos Op2.soa onSrc
    dsimp only
    rw [op_same fun c hc => (hm c).1 (by rw [hc])]
  | onB o =>
    unfold Op2.aos Op2.soa onDst
    dsimp only
    rw [op_same fun c hc => (hm c).2 (by rw [hc])]
  | swapAll => unfold Op2.aos Op2.soa; dsimp only; rw [swapAll_eq]
  | transferAB => unfold Op2.aos Op2.soa; dsimp only; rw [transfer_eq]
  | transferBA => unfold Op2.aos Op2.soa; dsimp only; rw [transfer_eq]
  | swapAB => unfold Op2.aos Op2.soa; dsimp only; rw [swapRange_eq]
  | swapBA => unfold Op2.aos Op2.soa; dsimp only; rw [swapRange_eq]

theorem history2_same (os : List (Op2 α)) : ∀ s t : St α, Truthful2 os s t →
    history2 Op2.aos os s t = history2 Op2.soa os s t := by
  induction os with
  | nil => intro s t _; simp only [history2]
  | cons o os ih =>
    intro s t h
    obtain ⟨h1, h2⟩ := h
    simp only [history2, op2_same h1]
    cases hx : o.soa s t <;> rw [hx] at h2 <;> dsimp only at h2 ⊢
    · rw [ih _ _ h2]
    · rw [ih _ _ h2]

theorem ctorRun_eq : @ctorRun α = @Ctor.run α := by
  funext k
  cases k <;> rfl

theorem destroy_eq : @Aos.destroy α = @Mtv.destroy α := by
  unfold Aos.destroy Mtv.destroy
  simp only [deleteElementBlocks_eq]

end Mdds.Aos
