import Verif.Mtv.Multi
/-!
Effect of `insert` and `insert_empty`, branch by branch.
-/
namespace Mdds.Mtv
open Mdds

set_option linter.unusedSimpArgs false
set_option linter.unusedVariables false

variable {α : Type} [DecidableEq α]

theorem insert_none_top (S : Option Ty → Prop) (hS : ∀ t, S t → t ≠ none) (pre post : List (Blk α))
    (p k : Nat) (ty : Ty) (vs : List α) (hvs : vs ≠ []) (c fr ev nx) (s : St α)
    (e : s = ⟨pre ++ ⟨p, k, none⟩ :: post, c, fr, ev, nx⟩) (h : WF S s) :
    Runs (insertCellsImpl (total pre) pre.length ty vs s)
      (fun r s' => Eff S True True s s'
        (cells pre ++ (vs.map (fun v => some (ty, v)) ++ List.replicate k none) ++ cells post)
        (vs.map (fun v => (ty, v))) []
        ∧ Holds s' r (total pre)) := by
  subst e
  have hS' : ¬ S none := fun h => hS _ h rfl
  have hb' : 0 < vs.length := List.length_pos_iff.2 hvs
  have hb2 : ¬ vs.length = 0 := by omega
  clear hS
  prevs ty pre
  go h

theorem insert_none_mid (S : Option Ty → Prop) (hS : ∀ t, S t → t ≠ none) (pre post : List (Blk α))
    (p a k : Nat) (ha : 0 < a) (hk : 0 < k) (ty : Ty) (vs : List α) (hvs : vs ≠ []) (c fr ev nx) (s : St α)
    (e : s = ⟨pre ++ ⟨p, a + k, none⟩ :: post, c, fr, ev, nx⟩) (h : WF S s) :
    Runs (insertCellsImpl (total pre + a) pre.length ty vs s)
      (fun r s' => Eff S True True s s'
        (cells pre ++ (List.replicate a none ++ vs.map (fun v => some (ty, v)) ++ List.replicate k none) ++ cells post)
        (vs.map (fun v => (ty, v))) []
        ∧ Holds s' r (total pre + a)) := by
  subst e
  have hS' : ¬ S none := fun h => hS _ h rfl
  have hb' : 0 < vs.length := List.length_pos_iff.2 hvs
  have hb2 : ¬ vs.length = 0 := by omega
  have ha2 : ¬ a = 0 := by omega
  clear hS
  go h

theorem insert_same (S : Option Ty → Prop) (pre post : List (Blk α))
    (p i : Nat) (ty : Ty) (va vb : List α) (vs : List α) (hvs : vs ≠ []) (c fr ev nx) (s : St α)
    (e : s = ⟨pre ++ ⟨p, va.length + vb.length, some ⟨i, ty, va ++ vb⟩⟩ :: post, c, fr, ev, nx⟩) (h : WF S s) :
    Runs (insertCellsImpl (total pre + va.length) pre.length ty vs s)
      (fun r s' => Eff S True True s s'
        (cells pre ++ (va.map (fun v => some (ty, v)) ++ vs.map (fun v => some (ty, v)) ++ vb.map (fun v => some (ty, v))) ++ cells post)
        (vs.map (fun v => (ty, v))) []
        ∧ Holds s' r (total pre + va.length)) := by
  subst e
  have hb' : 0 < vs.length := List.length_pos_iff.2 hvs
  have hb2 : ¬ vs.length = 0 := by omega
  go h

/-- Insertion at the start of a non-empty block of another type.  The acquired event
names the wrong block here, so the block-wise event statement is only claimed when the
values go to the previous block. -/
theorem insert_other_top (S : Option Ty → Prop) (pre post : List (Blk α))
    (p i : Nat) (t ty : Ty) (hty : t ≠ ty) (v0 : List α) (vs : List α) (hvs : vs ≠ []) (c fr ev nx) (s : St α)
    (e : s = ⟨pre ++ ⟨p, v0.length, some ⟨i, t, v0⟩⟩ :: post, c, fr, ev, nx⟩) (h : WF S s) :
    Runs (insertCellsImpl (total pre) pre.length ty vs s)
      (fun r s' => Eff S True (∃ b ∈ pre.getLast?, b.ty = some ty) s s'
        (cells pre ++ (vs.map (fun v => some (ty, v)) ++ v0.map (fun v => some (t, v))) ++ cells post)
        (vs.map (fun v => (ty, v))) []
        ∧ Holds s' r (total pre)) := by
  subst e
  have hb' : 0 < vs.length := List.length_pos_iff.2 hvs
  have hb2 : ¬ vs.length = 0 := by omega
  have hty' : ¬ ty = t := fun e => hty e.symm
  prevs ty pre
  go h

theorem insert_other_mid (S : Option Ty → Prop) (pre post : List (Blk α))
    (p i : Nat) (t ty : Ty) (hty : t ≠ ty) (va vb : List α) (ha : va ≠ []) (hb : vb ≠ [])
    (vs : List α) (hvs : vs ≠ []) (c fr ev nx) (s : St α)
    (e : s = ⟨pre ++ ⟨p, va.length + vb.length, some ⟨i, t, va ++ vb⟩⟩ :: post, c, fr, ev, nx⟩) (h : WF S s) :
    Runs (insertCellsImpl (total pre + va.length) pre.length ty vs s)
      (fun r s' => Eff S True True s s'
        (cells pre ++ (va.map (fun v => some (t, v)) ++ vs.map (fun v => some (ty, v)) ++ vb.map (fun v => some (t, v))) ++ cells post)
        (vs.map (fun v => (ty, v))) []
        ∧ Holds s' r (total pre + va.length)) := by
  subst e
  have hb' : 0 < vs.length := List.length_pos_iff.2 hvs
  have hb2 : ¬ vs.length = 0 := by omega
  have hty' : ¬ ty = t := fun e => hty e.symm
  have ha' : 0 < va.length := List.length_pos_iff.2 ha
  have ha2 : ¬ va.length = 0 := by omega
  have hbb' : 0 < vb.length := List.length_pos_iff.2 hb
  have hbb2 : ¬ vb.length = 0 := by omega
  go h

theorem insertEmpty_none (S : Option Ty → Prop) (pre post : List (Blk α))
    (p a k l : Nat) (hk : 0 < k) (c fr ev nx) (s : St α)
    (e : s = ⟨pre ++ ⟨p, a + k, none⟩ :: post, c, fr, ev, nx⟩) (h : WF S s) :
    Runs (insertEmptyImpl (total pre + a) pre.length l s)
      (fun r s' => Eff S True True s s'
        (cells pre ++ (List.replicate a none ++ List.replicate l none ++ List.replicate k none) ++ cells post) [] []
        ∧ Holds s' r (total pre + a)) := by
  subst e
  go h

theorem insertEmpty_top (S : Option Ty → Prop) (hS : ∀ t, S t → t ≠ none) (pre post : List (Blk α))
    (p i : Nat) (t : Ty) (v0 : List α) (l : Nat) (hl : 0 < l) (c fr ev nx) (s : St α)
    (e : s = ⟨pre ++ ⟨p, v0.length, some ⟨i, t, v0⟩⟩ :: post, c, fr, ev, nx⟩) (h : WF S s) :
    Runs (insertEmptyImpl (total pre) pre.length l s)
      (fun r s' => Eff S True True s s'
        (cells pre ++ (List.replicate l none ++ v0.map (fun v => some (t, v))) ++ cells post) [] []
        ∧ Holds s' r (total pre)) := by
  subst e
  have hS' : ¬ S none := fun h => hS _ h rfl
  clear hS
  prevs0 pre
  go h

theorem insertEmpty_mid (S : Option Ty → Prop) (hS : ∀ t, S t → t ≠ none) (pre post : List (Blk α))
    (p i : Nat) (t : Ty) (va vb : List α) (ha : va ≠ []) (hb : vb ≠ []) (l : Nat) (hl : 0 < l) (c fr ev nx) (s : St α)
    (e : s = ⟨pre ++ ⟨p, va.length + vb.length, some ⟨i, t, va ++ vb⟩⟩ :: post, c, fr, ev, nx⟩) (h : WF S s) :
    Runs (insertEmptyImpl (total pre + va.length) pre.length l s)
      (fun r s' => Eff S True True s s'
        (cells pre ++ (va.map (fun v => some (t, v)) ++ List.replicate l none ++ vb.map (fun v => some (t, v))) ++ cells post) [] []
        ∧ Holds s' r (total pre + va.length)) := by
  subst e
  have hS' : ¬ S none := fun h => hS _ h rfl
  clear hS
  have ha' : 0 < va.length := List.length_pos_iff.2 ha
  have ha2 : ¬ va.length = 0 := by omega
  have hbb' : 0 < vb.length := List.length_pos_iff.2 hb
  have hbb2 : ¬ vb.length = 0 := by omega
  by_cases hlt : vb.length < va.length
  · go h
  · go h

end Mdds.Mtv
