import Verif.Mtv.Multi

/-!
Effect of `set(pos, it_begin, it_end)` over several blocks, branch by branch.
-/
namespace Mdds.Mtv
open Mdds

set_option linter.unusedSimpArgs false
set_option linter.unusedVariables false

variable {α : Type} [DecidableEq α]

theorem multi_ne_all_all (S : Option Ty → Prop) (hS : ∀ t, S t → t ≠ none) (pre mid post : List (Blk α))
    (b1 b2 : Blk α) (d : Nat) (hd : b2.size = d + 1) (ty : Ty) (vs : List α) (c fr ev nx) (s : St α)
    (h1 : ¬ b1.ty = some ty) (hv : vs.length = b1.size + (total mid + (d + 1)))
    (e : s = ⟨pre ++ b1 :: (mid ++ b2 :: post), c, fr, ev, nx⟩) (h : WF S s) :
    Runs (setCellsMulti (total pre) (total pre + (b1.size + (total mid + d))) pre.length
        (pre.length + (mid.length + 1)) ty vs s)
      (fun r s' => Eff S True True s s'
        (cells pre ++ vs.map (fun v => some (ty, v)) ++ cells post)
        (vs.map (fun v => (ty, v))) []
        ∧ Holds s' r (total pre)) := by
  subst e
  have hS' : ¬ S none := fun h => hS _ h rfl
  clear hS
  nbrs ty pre post
  go h


theorem multi_ne_all_part (S : Option Ty → Prop) (hS : ∀ t, S t → t ≠ none) (pre mid post : List (Blk α))
    (b1 b2 : Blk α) (d : Nat) (hd : d + 1 < b2.size) (ty : Ty) (vs : List α) (c fr ev nx) (s : St α)
    (h1 : ¬ b1.ty = some ty) (hv : vs.length = b1.size + (total mid + (d + 1))) (ok2 : b2.ok)
    (e : s = ⟨pre ++ b1 :: (mid ++ b2 :: post), c, fr, ev, nx⟩) (h : WF S s) :
    Runs (setCellsMulti (total pre) (total pre + (b1.size + (total mid + d))) pre.length
        (pre.length + (mid.length + 1)) ty vs s)
      (fun r s' => Eff S True True s s'
        (cells pre ++ (vs.map (fun v => some (ty, v)) ++ b2.cells.drop (d + 1)) ++ cells post)
        (vs.map (fun v => (ty, v))) []
        ∧ Holds s' r (total pre)) := by
  subst e
  have hS' : ¬ S none := fun h => hS _ h rfl
  clear hS
  tails ty b2 d ok2 hd
  all_goals clear ok2 hd
  all_goals prevs ty pre
  go h

theorem multi_ne_part_all (S : Option Ty → Prop) (hS : ∀ t, S t → t ≠ none) (pre mid post : List (Blk α))
    (b1 b2 : Blk α) (a d : Nat) (hd : b2.size = d + 1) (ty : Ty) (vs : List α) (c fr ev nx) (s : St α)
    (h1 : ¬ b1.ty = some ty) (ha : 0 < a) (ha1 : a < b1.size) (ok1 : b1.ok)
    (hv : a + vs.length = b1.size + (total mid + (d + 1)))
    (e : s = ⟨pre ++ b1 :: (mid ++ b2 :: post), c, fr, ev, nx⟩) (h : WF S s) :
    Runs (setCellsMulti (total pre + a) (total pre + (b1.size + (total mid + d))) pre.length
        (pre.length + (mid.length + 1)) ty vs s)
      (fun r s' => Eff S True True s s'
        (cells pre ++ (b1.cells.take a ++ vs.map (fun v => some (ty, v))) ++ cells post)
        (vs.map (fun v => (ty, v))) []
        ∧ Holds s' r (total pre + a)) := by
  subst e
  have hS' : ¬ S none := fun h => hS _ h rfl
  have ha' : ¬ a = 0 := by omega
  clear hS
  heads ty b1 a ok1 ha ha1
  all_goals clear ok1 ha1
  all_goals nexts ty post
  all_goals subst_vars
  all_goals simp only [Nat.add_assoc, Nat.add_left_cancel_iff] at hv
  go h

theorem multi_ne_part_part (S : Option Ty → Prop) (hS : ∀ t, S t → t ≠ none) (pre mid post : List (Blk α))
    (b1 b2 : Blk α) (a d : Nat) (hd : d + 1 < b2.size) (ty : Ty) (vs : List α) (c fr ev nx) (s : St α)
    (h1 : ¬ b1.ty = some ty) (ha : 0 < a) (ha1 : a < b1.size) (ok1 : b1.ok) (ok2 : b2.ok)
    (hv : a + vs.length = b1.size + (total mid + (d + 1)))
    (e : s = ⟨pre ++ b1 :: (mid ++ b2 :: post), c, fr, ev, nx⟩) (h : WF S s) :
    Runs (setCellsMulti (total pre + a) (total pre + (b1.size + (total mid + d))) pre.length
        (pre.length + (mid.length + 1)) ty vs s)
      (fun r s' => Eff S True True s s'
        (cells pre ++ (b1.cells.take a ++ vs.map (fun v => some (ty, v)) ++ b2.cells.drop (d + 1)) ++ cells post)
        (vs.map (fun v => (ty, v))) []
        ∧ Holds s' r (total pre + a)) := by
  subst e
  have hS' : ¬ S none := fun h => hS _ h rfl
  have ha' : ¬ a = 0 := by omega
  clear hS
  heads ty b1 a ok1 ha ha1
  all_goals clear ok1 ha1
  all_goals tails ty b2 d ok2 hd
  all_goals clear ok2 hd
  all_goals subst_vars
  all_goals simp only [Nat.add_assoc, Nat.add_left_cancel_iff] at hv
  go h


theorem multi_eq_all (S : Option Ty → Prop) (hS : ∀ t, S t → t ≠ none) (pre mid post : List (Blk α))
    (b2 : Blk α) (p i n : Nat) (va vm : List α) (y : α) (d : Nat) (hd : b2.size = d + 1) (ty : Ty) (vs : List α)
    (c fr ev nx) (s : St α) (hp : SR S (some ty) post) (hn : n = va.length + (vm.length + 1))
    (hv : vs.length = vm.length + 1 + (total mid + (d + 1)))
    (e : s = ⟨pre ++ ⟨p, n, some ⟨i, ty, va ++ (y :: vm)⟩⟩ :: (mid ++ b2 :: post), c, fr, ev, nx⟩) (h : WF S s) :
    Runs (setCellsMulti (total pre + va.length) (total pre + (va.length + (vm.length + 1 + (total mid + d)))) pre.length
        (pre.length + (mid.length + 1)) ty vs s)
      (fun r s' => Eff S True True s s'
        (cells pre ++ (va.map (fun v => some (ty, v)) ++ vs.map (fun v => some (ty, v))) ++ cells post)
        (vs.map (fun v => (ty, v))) []
        ∧ Holds s' r (total pre + va.length)) := by
  subst e
  have hS' : ¬ S none := fun h => hS _ h rfl
  clear hS
  go h

theorem multi_eq_part (S : Option Ty → Prop) (hS : ∀ t, S t → t ≠ none) (pre mid post : List (Blk α))
    (b2 : Blk α) (p i n : Nat) (va vm : List α) (y : α) (d : Nat) (hd : d + 1 < b2.size) (ty : Ty) (vs : List α)
    (c fr ev nx) (s : St α) (ok2 : b2.ok) (hn : n = va.length + (vm.length + 1))
    (hv : vs.length = vm.length + 1 + (total mid + (d + 1)))
    (e : s = ⟨pre ++ ⟨p, n, some ⟨i, ty, va ++ (y :: vm)⟩⟩ :: (mid ++ b2 :: post), c, fr, ev, nx⟩) (h : WF S s) :
    Runs (setCellsMulti (total pre + va.length) (total pre + (va.length + (vm.length + 1 + (total mid + d)))) pre.length
        (pre.length + (mid.length + 1)) ty vs s)
      (fun r s' => Eff S (∀ t ∈ b2.ty, t ≠ ty → t.managed = false) True s s'
        (cells pre ++ (va.map (fun v => some (ty, v)) ++ vs.map (fun v => some (ty, v)) ++ b2.cells.drop (d + 1))
          ++ cells post)
        (vs.map (fun v => (ty, v))) []
        ∧ Holds s' r (total pre + va.length)) := by
  subst e
  have hS' : ¬ S none := fun h => hS _ h rfl
  clear hS
  tails ty b2 d ok2 hd
  all_goals clear ok2 hd
  go h

end Mdds.Mtv
