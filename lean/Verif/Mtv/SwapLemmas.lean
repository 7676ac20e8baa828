import Verif.Mtv.Swap
import Verif.Mtv.TransferOk
/-!
Steps of the range `swap` on one container.
-/
namespace Mdds.Mtv
open Mdds

set_option linter.unusedSimpArgs false
set_option linter.unusedVariables false
set_option linter.unusedSectionVars false

variable {α : Type} [DecidableEq α]

mk_ap exchangeOne takeIn

set_option maxHeartbeats 1000000 in
theorem ex_all (S : Option Ty → Prop) (hS : ∀ t, S t → t ≠ none) (pre post : List (Blk α))
    (p i n : Nat) (u : Ty) (y : α) (vm : List α) (ty : Ty) (v : α) (vs : List α) (c fr ev nx) (s : St α)
    (hty : u ≠ ty) (hm : vs.length = vm.length) (hn : n = (vm.length + 1))
    (hb : ¬ ((∃ q p n i v, pre = q ++ [⟨p, n, some ⟨i, ty, v⟩⟩]) ∧ (∃ q p n i v, post = ⟨p, n, some ⟨i, ty, v⟩⟩ :: q)))
    (e : s = ⟨pre ++ ⟨p, n, some ⟨i, u, (y :: vm)⟩⟩ :: post, c, fr, ev, nx⟩) (h : WF S s) :
    Runs (exchangeOne ty (v :: vs) pre.length 0 (vm.length + 1) s)
      (fun r s' => Eff S True True s s'
        (cells pre ++ ((v :: vs).map (fun v => some (ty, v))) ++ cells post)
        ((v :: vs).map (fun v => (ty, v))) ((y :: vm).map (fun v => (u, v)))
        ∧ r.ty = u ∧ r.vals = y :: vm) := by
  subst e
  have hS' : ¬ S none := fun h => hS _ h rfl
  have hty' : ty ≠ u := hty.symm
  nbrs ty pre post
  all_goals subst_vars
  all_goals try exact absurd ⟨⟨_, _, _, _, _, rfl⟩, ⟨_, _, _, _, _, rfl⟩⟩ hb
  all_goals clear hb
  runs h [total_nil]

theorem ex_all_between (S : Option Ty → Prop) (hS : ∀ t, S t → t ≠ none) (pre post : List (Blk α))
    (p i n : Nat) (u : Ty) (y : α) (vm : List α) (ty : Ty) (v : α) (vs : List α) (c fr ev nx) (s : St α)
    (p1 n1 i1 v1 p2 n2 i2 v2)
    (hty : u ≠ ty) (hm : vs.length = vm.length) (hn : n = (vm.length + 1))
    (e : s = ⟨pre ++ ⟨p1, n1, some ⟨i1, ty, v1⟩⟩ :: ⟨p, n, some ⟨i, u, (y :: vm)⟩⟩ :: ⟨p2, n2, some ⟨i2, ty, v2⟩⟩ :: post, c, fr, ev, nx⟩) (h : WF S s) :
    Runs (exchangeOne ty (v :: vs) (pre.length + 1) 0 (vm.length + 1) s)
      (fun r s' => Eff S (ty.managed = false) True s s'
        (cells pre ++ (v1.map (fun v => some (ty, v)) ++ ((v :: vs).map (fun v => some (ty, v)) ++ (v2.map (fun v => some (ty, v)) ++ cells post))))
        ((v :: vs).map (fun v => (ty, v))) ((y :: vm).map (fun v => (u, v)))
        ∧ r.ty = u ∧ r.vals = y :: vm) := by
  subst e
  have hS' : ¬ S none := fun h => hS _ h rfl
  have hty' : ty ≠ u := hty.symm
  runs h [total_nil]

set_option maxHeartbeats 1000000 in
theorem ex_top (S : Option Ty → Prop) (hS : ∀ t, S t → t ≠ none) (pre post : List (Blk α))
    (p i n : Nat) (u : Ty) (y : α) (vm vb : List α) (ty : Ty) (v : α) (vs : List α) (c fr ev nx) (s : St α)
    (hty : u ≠ ty) (hm : vs.length = vm.length) (hb : vb ≠ []) (hn : n = (vm.length + 1 + vb.length))
    (e : s = ⟨pre ++ ⟨p, n, some ⟨i, u, (y :: (vm ++ vb))⟩⟩ :: post, c, fr, ev, nx⟩) (h : WF S s) :
    Runs (exchangeOne ty (v :: vs) pre.length 0 (vm.length + 1) s)
      (fun r s' => Eff S True True s s'
        (cells pre ++ ((v :: vs).map (fun v => some (ty, v)) ++ vb.map (fun v => some (u, v))) ++ cells post)
        ((v :: vs).map (fun v => (ty, v))) ((y :: vm).map (fun v => (u, v)))
        ∧ r.ty = u ∧ r.vals = y :: vm) := by
  subst e
  have hS' : ¬ S none := fun h => hS _ h rfl
  have hty' : ty ≠ u := hty.symm
  have hb' : 0 < vb.length := List.length_pos_iff.2 hb
  have hb2 : ¬ vb.length = 0 := by omega
  nbrs ty pre post
  runs h [total_nil]

theorem ex_bottom (S : Option Ty → Prop) (hS : ∀ t, S t → t ≠ none) (pre post : List (Blk α))
    (p i n : Nat) (u : Ty) (y : α) (va vm : List α) (ty : Ty) (v : α) (vs : List α) (c fr ev nx) (s : St α)
    (hty : u ≠ ty) (hm : vs.length = vm.length) (ha : va ≠ []) (hn : n = va.length + (vm.length + 1))
    (e : s = ⟨pre ++ ⟨p, n, some ⟨i, u, va ++ (y :: vm)⟩⟩ :: post, c, fr, ev, nx⟩) (h : WF S s) :
    Runs (exchangeOne ty (v :: vs) pre.length va.length (vm.length + 1) s)
      (fun r s' => Eff S True True s s'
        (cells pre ++ (va.map (fun v => some (u, v)) ++ (v :: vs).map (fun v => some (ty, v))) ++ cells post)
        ((v :: vs).map (fun v => (ty, v))) ((y :: vm).map (fun v => (u, v)))
        ∧ r.ty = u ∧ r.vals = y :: vm) := by
  subst e
  have hS' : ¬ S none := fun h => hS _ h rfl
  have hty' : ty ≠ u := hty.symm
  have ha' : 0 < va.length := List.length_pos_iff.2 ha
  have ha2 : ¬ va.length = 0 := by omega
  nexts ty post
  runs h [total_nil]

set_option maxHeartbeats 1000000 in
theorem ex_mid (S : Option Ty → Prop) (hS : ∀ t, S t → t ≠ none) (pre post : List (Blk α))
    (p i n : Nat) (u : Ty) (y : α) (va vm vb : List α) (ty : Ty) (v : α) (vs : List α) (c fr ev nx) (s : St α)
    (hty : u ≠ ty) (hm : vs.length = vm.length) (ha : va ≠ []) (hb : vb ≠ []) (hn : n = va.length + (vm.length + 1 + vb.length))
    (e : s = ⟨pre ++ ⟨p, n, some ⟨i, u, va ++ (y :: (vm ++ vb))⟩⟩ :: post, c, fr, ev, nx⟩) (h : WF S s) :
    Runs (exchangeOne ty (v :: vs) pre.length va.length (vm.length + 1) s)
      (fun r s' => Eff S True True s s'
        (cells pre ++ (va.map (fun v => some (u, v)) ++ (v :: vs).map (fun v => some (ty, v)) ++ vb.map (fun v => some (u, v))) ++ cells post)
        ((v :: vs).map (fun v => (ty, v))) ((y :: vm).map (fun v => (u, v)))
        ∧ r.ty = u ∧ r.vals = y :: vm) := by
  subst e
  have hS' : ¬ S none := fun h => hS _ h rfl
  have hty' : ty ≠ u := hty.symm
  have ha' : 0 < va.length := List.length_pos_iff.2 ha
  have ha2 : ¬ va.length = 0 := by omega
  have hb' : 0 < vb.length := List.length_pos_iff.2 hb
  have hb2 : ¬ vb.length = 0 := by omega
  nexts ty post <;> by_cases hlt : vb.length < va.length
  runs h [setNewBlockToMiddle]

/-! ### The container's own side -/

set_option maxHeartbeats 1000000 in
theorem take_top (S : Option Ty → Prop) (hS : ∀ t, S t → t ≠ none) (pre post : List (Blk α))
    (p i n : Nat) (u : Ty) (y : α) (vm vb : List α) (ty : Ty) (k : Nat) (v : α) (vs : List α) (c fr ev nx) (s : St α)
    (hty : u ≠ ty) (hm : vs.length = vm.length) (hb : vb ≠ []) (hn : n = (vm.length + 1 + vb.length))
    (e : s = ⟨pre ++ ⟨p, n, some ⟨i, u, (y :: (vm ++ vb))⟩⟩ :: post, c, fr, ev, nx⟩) (h : WF S s) :
    Runs (takeIn pre.length 0 (vm.length + 1) vb.length ⟨k, ty, v :: vs⟩ s)
      (fun _ s' => Eff S True True s s'
        (cells pre ++ ((v :: vs).map (fun v => some (ty, v)) ++ vb.map (fun v => some (u, v))) ++ cells post)
        ((v :: vs).map (fun v => (ty, v))) ((y :: vm).map (fun v => (u, v)))) := by
  subst e
  have hS' : ¬ S none := fun h => hS _ h rfl
  have hty' : ty ≠ u := hty.symm
  have hb' : 0 < vb.length := List.length_pos_iff.2 hb
  have hb2 : ¬ vb.length = 0 := by omega
  prevs ty pre
  runs h [total_nil]

set_option maxHeartbeats 1000000 in
theorem take_bottom (S : Option Ty → Prop) (hS : ∀ t, S t → t ≠ none) (pre post : List (Blk α))
    (p i n : Nat) (u : Ty) (y : α) (va vm : List α) (ty : Ty) (k : Nat) (v : α) (vs : List α) (c fr ev nx) (s : St α)
    (hty : u ≠ ty) (hm : vs.length = vm.length) (ha : va ≠ []) (hn : n = va.length + (vm.length + 1))
    (e : s = ⟨pre ++ ⟨p, n, some ⟨i, u, va ++ (y :: vm)⟩⟩ :: post, c, fr, ev, nx⟩) (h : WF S s) :
    Runs (takeIn pre.length va.length (vm.length + 1) 0 ⟨k, ty, v :: vs⟩ s)
      (fun _ s' => Eff S True True s s'
        (cells pre ++ (va.map (fun v => some (u, v)) ++ (v :: vs).map (fun v => some (ty, v))) ++ cells post)
        ((v :: vs).map (fun v => (ty, v))) ((y :: vm).map (fun v => (u, v)))) := by
  subst e
  have hS' : ¬ S none := fun h => hS _ h rfl
  have hty' : ty ≠ u := hty.symm
  have ha' : 0 < va.length := List.length_pos_iff.2 ha
  have ha2 : ¬ va.length = 0 := by omega
  have hvt : vs.take vm.length = vs := List.take_of_length_le (by omega)
  nexts ty post
  runs h [total_nil]

set_option maxHeartbeats 1000000 in
theorem take_mid (S : Option Ty → Prop) (hS : ∀ t, S t → t ≠ none) (pre post : List (Blk α))
    (p i n : Nat) (u : Ty) (y : α) (va vm vb : List α) (ty : Ty) (k : Nat) (v : α) (vs : List α) (c fr ev nx) (s : St α)
    (hty : u ≠ ty) (hm : vs.length = vm.length) (ha : va ≠ []) (hb : vb ≠ []) (hn : n = va.length + (vm.length + 1 + vb.length))
    (e : s = ⟨pre ++ ⟨p, n, some ⟨i, u, va ++ (y :: (vm ++ vb))⟩⟩ :: post, c, fr, ev, nx⟩) (h : WF S s) :
    Runs (takeIn pre.length va.length (vm.length + 1) vb.length ⟨k, ty, v :: vs⟩ s)
      (fun _ s' => Eff S True True s s'
        (cells pre ++ (va.map (fun v => some (u, v)) ++ (v :: vs).map (fun v => some (ty, v)) ++ vb.map (fun v => some (u, v))) ++ cells post)
        ((v :: vs).map (fun v => (ty, v))) ((y :: vm).map (fun v => (u, v)))) := by
  subst e
  have hS' : ¬ S none := fun h => hS _ h rfl
  have hty' : ty ≠ u := hty.symm
  have ha' : 0 < va.length := List.length_pos_iff.2 ha
  have ha2 : ¬ va.length = 0 := by omega
  have hb' : 0 < vb.length := List.length_pos_iff.2 hb
  have hb2 : ¬ vb.length = 0 := by omega
  by_cases hlt : vb.length < va.length
  all_goals runs h [setNewBlockToMiddle]

end Mdds.Mtv
