import Verif.Mtv.ModelRange
import Verif.Mtv.SetLemmas
/-!
Effect of `set_cells_to_single_block`.
-/
namespace Mdds.Mtv
open Mdds

set_option linter.unusedSimpArgs false
set_option linter.unusedVariables false

variable {α : Type} [DecidableEq α]

theorem single_none_mid (S : Option Ty → Prop) (hS : ∀ t, S t → t ≠ none) (pre post : List (Blk α))
    (p a k : Nat) (ha : 0 < a) (hk : 0 < k) (ty : Ty) (v : α) (vs : List α) (c fr ev nx) (s : St α)
    (e : s = ⟨pre ++ ⟨p, a + (vs.length + 1 + k), none⟩ :: post, c, fr, ev, nx⟩) (h : WF S s) :
    Runs (setCellsSingle (total pre + a) (total pre + a + vs.length) pre.length ty (v :: vs) s)
      (fun r s' => Eff S True True s s'
        (cells pre ++ (List.replicate a none ++ (v :: vs).map (fun v => some (ty, v)) ++ List.replicate k none) ++ cells post)
        ((v :: vs).map (fun v => (ty, v))) []
        ∧ Holds s' r (total pre + a)) := by
  subst e
  have hS' : ¬ S none := fun h => hS _ h rfl
  wf_split h
  have e1 : p = total pre := by assumption
  subst e1
  have h1 : ¬ a = 0 := by omega
  have h2 : ¬ k = 0 := by omega
  simp [setCellsSingle, setNewBlockToMiddle, newBlockAt, mev, Nat.add_assoc, h1, h2]
  fin_tac

theorem single_none_all (S : Option Ty → Prop) (hS : ∀ t, S t → t ≠ none) (pre post : List (Blk α))
    (p : Nat) (ty : Ty) (v : α) (vs : List α) (c fr ev nx) (s : St α)
    (e : s = ⟨pre ++ ⟨p, vs.length + 1, none⟩ :: post, c, fr, ev, nx⟩) (h : WF S s) :
    Runs (setCellsSingle (total pre) (total pre + vs.length) pre.length ty (v :: vs) s)
      (fun r s' => Eff S True True s s'
        (cells pre ++ (v :: vs).map (fun v => some (ty, v)) ++ cells post)
        ((v :: vs).map (fun v => (ty, v))) []
        ∧ Holds s' r (total pre)) := by
  subst e
  have hS' : ¬ S none := fun h => hS _ h rfl
  nbrs ty pre post
  runs h [setCellsSingle, appendToPrev, dropOld, newBlockAt, mergeWithNext]

theorem single_none_top (S : Option Ty → Prop) (hS : ∀ t, S t → t ≠ none) (pre post : List (Blk α))
    (p k : Nat) (hk : 0 < k) (ty : Ty) (v : α) (vs : List α) (c fr ev nx) (s : St α)
    (e : s = ⟨pre ++ ⟨p, vs.length + 1 + k, none⟩ :: post, c, fr, ev, nx⟩) (h : WF S s) :
    Runs (setCellsSingle (total pre) (total pre + vs.length) pre.length ty (v :: vs) s)
      (fun r s' => Eff S True True s s'
        (cells pre ++ ((v :: vs).map (fun v => some (ty, v)) ++ List.replicate k none) ++ cells post)
        ((v :: vs).map (fun v => (ty, v))) []
        ∧ Holds s' r (total pre)) := by
  subst e
  have hS' : ¬ S none := fun h => hS _ h rfl
  have h1 : ¬ k = 0 := by omega
  prevs ty pre
  runs h [setCellsSingle, appendToPrev, keepLower, newBlockAt]

theorem single_none_bottom (S : Option Ty → Prop) (hS : ∀ t, S t → t ≠ none) (pre post : List (Blk α))
    (p a : Nat) (ha : 0 < a) (ty : Ty) (v : α) (vs : List α) (c fr ev nx) (s : St α)
    (e : s = ⟨pre ++ ⟨p, a + (vs.length + 1), none⟩ :: post, c, fr, ev, nx⟩) (h : WF S s) :
    Runs (setCellsSingle (total pre + a) (total pre + a + vs.length) pre.length ty (v :: vs) s)
      (fun r s' => Eff S True True s s'
        (cells pre ++ (List.replicate a none ++ (v :: vs).map (fun v => some (ty, v))) ++ cells post)
        ((v :: vs).map (fun v => (ty, v))) []
        ∧ Holds s' r (total pre + a)) := by
  subst e
  have hS' : ¬ S none := fun h => hS _ h rfl
  have h1 : ¬ a = 0 := by omega
  nexts ty post
  runs h [setCellsSingle, cutLower, newBlockAt]

theorem single_same (S : Option Ty → Prop) (hS : ∀ t, S t → t ≠ none) (pre post : List (Blk α))
    (p i n : Nat) (y : α) (va vm vb : List α) (ty : Ty) (v : α) (vs : List α) (c fr ev nx) (s : St α)
    (hm : vs.length = vm.length) (hn : n = va.length + (vm.length + 1 + vb.length))
    (e : s = ⟨pre ++ ⟨p, n, some ⟨i, ty, va ++ (y :: (vm ++ vb))⟩⟩ :: post, c, fr, ev, nx⟩) (h : WF S s) :
    Runs (setCellsSingle (total pre + va.length) (total pre + va.length + vm.length) pre.length ty (v :: vs) s)
      (fun r s' => Eff S True True s s'
        (cells pre ++ (va.map (fun v => some (ty, v)) ++ (v :: vs).map (fun v => some (ty, v))
          ++ vb.map (fun v => some (ty, v))) ++ cells post)
        ((v :: vs).map (fun v => (ty, v))) []
        ∧ Holds s' r (total pre + va.length)) := by
  subst e
  have hS' : ¬ S none := fun h => hS _ h rfl
  by_cases h0 : va = []
  · subst h0
    rcases vb with _ | ⟨z, vb⟩
    · runs h [setCellsSingle]
    · runs h [setCellsSingle]
  · runs h [setCellsSingle]

theorem single_some_all (S : Option Ty → Prop) (hS : ∀ t, S t → t ≠ none) (pre post : List (Blk α))
    (p i n : Nat) (t : Ty) (y : α) (vm : List α) (ty : Ty) (v : α) (vs : List α) (c fr ev nx) (s : St α)
    (hty : t ≠ ty) (hm : vs.length = vm.length) (hn : n = (vm.length + 1))
    (e : s = ⟨pre ++ ⟨p, n, some ⟨i, t, (y :: vm)⟩⟩ :: post, c, fr, ev, nx⟩) (h : WF S s) :
    Runs (setCellsSingle (total pre) (total pre + vm.length) pre.length ty (v :: vs) s)
      (fun r s' => Eff S True True s s'
        (cells pre ++ ((v :: vs).map (fun v => some (ty, v))) ++ cells post)
        ((v :: vs).map (fun v => (ty, v))) []
        ∧ Holds s' r (total pre)) := by
  subst e
  have hS' : ¬ S none := fun h => hS _ h rfl
  have hty' : ty ≠ t := hty.symm
  nbrs ty pre post
  runs h [setCellsSingle, appendToPrev, dropOld, newBlockAt, mergeWithNext]

theorem single_some_top (S : Option Ty → Prop) (hS : ∀ t, S t → t ≠ none) (pre post : List (Blk α))
    (p i n : Nat) (t : Ty) (y : α) (vm vb : List α) (ty : Ty) (v : α) (vs : List α) (c fr ev nx) (s : St α)
    (hty : t ≠ ty) (hm : vs.length = vm.length) (hb : vb ≠ []) (hn : n = (vm.length + 1 + vb.length))
    (e : s = ⟨pre ++ ⟨p, n, some ⟨i, t, (y :: (vm ++ vb))⟩⟩ :: post, c, fr, ev, nx⟩) (h : WF S s) :
    Runs (setCellsSingle (total pre) (total pre + vm.length) pre.length ty (v :: vs) s)
      (fun r s' => Eff S True False s s'
        (cells pre ++ ((v :: vs).map (fun v => some (ty, v)) ++ vb.map (fun v => some (t, v))) ++ cells post)
        ((v :: vs).map (fun v => (ty, v))) []
        ∧ Holds s' r (total pre)) := by
  subst e
  have hS' : ¬ S none := fun h => hS _ h rfl
  have hty' : ty ≠ t := hty.symm
  have hb' : 0 < vb.length := List.length_pos_iff.2 hb
  have hb2 : ¬ vb.length = 0 := by omega
  prevs ty pre
  runs h [setCellsSingle, appendToPrev, keepLower, newBlockAt]

theorem single_some_bottom (S : Option Ty → Prop) (hS : ∀ t, S t → t ≠ none) (pre post : List (Blk α))
    (p i n : Nat) (t : Ty) (y : α) (va vm : List α) (ty : Ty) (v : α) (vs : List α) (c fr ev nx) (s : St α)
    (hty : t ≠ ty) (hm : vs.length = vm.length) (ha : va ≠ []) (hn : n = va.length + (vm.length + 1))
    (e : s = ⟨pre ++ ⟨p, n, some ⟨i, t, va ++ (y :: vm)⟩⟩ :: post, c, fr, ev, nx⟩) (h : WF S s) :
    Runs (setCellsSingle (total pre + va.length) (total pre + va.length + vm.length) pre.length ty (v :: vs) s)
      (fun r s' => Eff S True True s s'
        (cells pre ++ (va.map (fun v => some (t, v)) ++ (v :: vs).map (fun v => some (ty, v))) ++ cells post)
        ((v :: vs).map (fun v => (ty, v))) []
        ∧ Holds s' r (total pre + va.length)) := by
  subst e
  have hS' : ¬ S none := fun h => hS _ h rfl
  have hty' : ty ≠ t := hty.symm
  have ha' : 0 < va.length := List.length_pos_iff.2 ha
  have ha2 : ¬ va.length = 0 := by omega
  nexts ty post
  runs h [setCellsSingle, cutLower, newBlockAt]

theorem single_some_mid (S : Option Ty → Prop) (hS : ∀ t, S t → t ≠ none) (pre post : List (Blk α))
    (p i n : Nat) (t : Ty) (y : α) (va vm vb : List α) (ty : Ty) (v : α) (vs : List α) (c fr ev nx) (s : St α)
    (hty : t ≠ ty) (hm : vs.length = vm.length) (ha : va ≠ []) (hb : vb ≠ []) (hn : n = va.length + (vm.length + 1 + vb.length))
    (e : s = ⟨pre ++ ⟨p, n, some ⟨i, t, va ++ (y :: (vm ++ vb))⟩⟩ :: post, c, fr, ev, nx⟩) (h : WF S s) :
    Runs (setCellsSingle (total pre + va.length) (total pre + va.length + vm.length) pre.length ty (v :: vs) s)
      (fun r s' => Eff S True True s s'
        (cells pre ++ (va.map (fun v => some (t, v)) ++ (v :: vs).map (fun v => some (ty, v)) ++ vb.map (fun v => some (t, v))) ++ cells post)
        ((v :: vs).map (fun v => (ty, v))) []
        ∧ Holds s' r (total pre + va.length)) := by
  subst e
  have hS' : ¬ S none := fun h => hS _ h rfl
  have hty' : ty ≠ t := hty.symm
  have ha' : 0 < va.length := List.length_pos_iff.2 ha
  have ha2 : ¬ va.length = 0 := by omega
  have hb' : 0 < vb.length := List.length_pos_iff.2 hb
  have hb2 : ¬ vb.length = 0 := by omega
  by_cases hlt : vb.length < va.length
  all_goals runs h [setCellsSingle, setNewBlockToMiddle, newBlockAt]

end Mdds.Mtv
