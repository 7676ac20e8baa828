import Verif.Mtv.Multi
/-!
Effect of `set_empty`, branch by branch.  `ow = true` destroys the values that are
overwritten, `ow = false` hands them over to the caller.
-/
namespace Mdds.Mtv
open Mdds

set_option linter.unusedSimpArgs false
set_option linter.unusedVariables false

variable {α : Type} [DecidableEq α]

theorem emptySingle_none (S : Option Ty → Prop) (pre post : List (Blk α)) (row endRow : Nat)
    (p n : Nat) (ow : Bool) (c fr ev nx) (s : St α) (h1 : p ≤ row) (h2 : row < p + n)
    (e : s = ⟨pre ++ ⟨p, n, none⟩ :: post, c, fr, ev, nx⟩) (h : WF S s) :
    Runs (setEmptySingle row endRow pre.length ow s)
      (fun r s' => Eff S True True s s' (cells pre ++ List.replicate n none ++ cells post) [] []
        ∧ Holds s' r row) := by
  subst e
  go h

theorem emptySingle_all (S : Option Ty → Prop) (hS : ∀ t, S t → t ≠ none) (pre post : List (Blk α))
    (p i n : Nat) (t : Ty) (y : α) (vm : List α) (ow : Bool) (c fr ev nx) (s : St α)
    (hn : n = vm.length + 1)
    (e : s = ⟨pre ++ ⟨p, n, some ⟨i, t, y :: vm⟩⟩ :: post, c, fr, ev, nx⟩) (h : WF S s) :
    Runs (setEmptySingle (total pre) (total pre + vm.length) pre.length ow s)
      (fun r s' => Eff S True True s s'
        (cells pre ++ List.replicate (vm.length + 1) none ++ cells post) []
        (if ow then [] else (y :: vm).map (fun v => (t, v)))
        ∧ Holds s' r (total pre)) := by
  subst e
  have hS' : ¬ S none := fun h => hS _ h rfl
  clear hS
  nbrs0 pre post
  all_goals cases ow
  go h

theorem emptySingle_top (S : Option Ty → Prop) (hS : ∀ t, S t → t ≠ none) (pre post : List (Blk α))
    (p i n : Nat) (t : Ty) (y : α) (vm vb : List α) (hb : vb ≠ []) (ow : Bool) (c fr ev nx) (s : St α)
    (hn : n = vm.length + 1 + vb.length)
    (e : s = ⟨pre ++ ⟨p, n, some ⟨i, t, y :: (vm ++ vb)⟩⟩ :: post, c, fr, ev, nx⟩) (h : WF S s) :
    Runs (setEmptySingle (total pre) (total pre + vm.length) pre.length ow s)
      (fun r s' => Eff S True True s s'
        (cells pre ++ (List.replicate (vm.length + 1) none ++ vb.map (fun v => some (t, v))) ++ cells post) []
        (if ow then [] else (y :: vm).map (fun v => (t, v)))
        ∧ Holds s' r (total pre)) := by
  subst e
  have hS' : ¬ S none := fun h => hS _ h rfl
  have hb' : 0 < vb.length := List.length_pos_iff.2 hb
  have hb2 : ¬ vb.length = 0 := by omega
  clear hS
  prevs0 pre
  all_goals cases ow
  go h

theorem emptySingle_bottom (S : Option Ty → Prop) (hS : ∀ t, S t → t ≠ none) (pre post : List (Blk α))
    (p i n : Nat) (t : Ty) (y : α) (va vm : List α) (ha : va ≠ []) (ow : Bool) (c fr ev nx) (s : St α)
    (hn : n = va.length + (vm.length + 1))
    (e : s = ⟨pre ++ ⟨p, n, some ⟨i, t, va ++ (y :: vm)⟩⟩ :: post, c, fr, ev, nx⟩) (h : WF S s) :
    Runs (setEmptySingle (total pre + va.length) (total pre + va.length + vm.length) pre.length ow s)
      (fun r s' => Eff S True True s s'
        (cells pre ++ (va.map (fun v => some (t, v)) ++ List.replicate (vm.length + 1) none) ++ cells post) []
        (if ow then [] else (y :: vm).map (fun v => (t, v)))
        ∧ Holds s' r (total pre + va.length)) := by
  subst e
  have hS' : ¬ S none := fun h => hS _ h rfl
  have ha' : 0 < va.length := List.length_pos_iff.2 ha
  have ha2 : ¬ va.length = 0 := by omega
  clear hS
  nexts0 post
  all_goals cases ow
  go h

theorem emptySingle_mid (S : Option Ty → Prop) (hS : ∀ t, S t → t ≠ none) (pre post : List (Blk α))
    (p i n : Nat) (t : Ty) (y : α) (va vm vb : List α) (ha : va ≠ []) (hb : vb ≠ []) (ow : Bool)
    (c fr ev nx) (s : St α) (hn : n = va.length + (vm.length + 1 + vb.length))
    (e : s = ⟨pre ++ ⟨p, n, some ⟨i, t, va ++ (y :: (vm ++ vb))⟩⟩ :: post, c, fr, ev, nx⟩) (h : WF S s) :
    Runs (setEmptySingle (total pre + va.length) (total pre + va.length + vm.length) pre.length ow s)
      (fun r s' => Eff S True True s s'
        (cells pre ++ (va.map (fun v => some (t, v)) ++ List.replicate (vm.length + 1) none
          ++ vb.map (fun v => some (t, v))) ++ cells post) []
        (if ow then [] else (y :: vm).map (fun v => (t, v)))
        ∧ Holds s' r (total pre + va.length)) := by
  subst e
  have hS' : ¬ S none := fun h => hS _ h rfl
  have ha' : 0 < va.length := List.length_pos_iff.2 ha
  have ha2 : ¬ va.length = 0 := by omega
  have hb' : 0 < vb.length := List.length_pos_iff.2 hb
  have hb2 : ¬ vb.length = 0 := by omega
  clear hS
  by_cases hlt : vb.length < va.length
  all_goals cases ow
  runs h [setNewBlockToMiddle]


/-- What `set_empty` over several blocks hands over. -/
def outsOf (ow : Bool) (a d : Nat) (b1 : Blk α) (mid : List (Blk α)) (b2 : Blk α) : List (Ty × α) :=
  if ow then [] else b1.typed.drop a ++ (typed mid ++ b2.typed.take (d + 1))

theorem emptyMulti_NN (S : Option Ty → Prop) (hS : ∀ t, S t → t ≠ none) (pre mid post : List (Blk α))
    (p1 a m : Nat)
    (p2 d k : Nat) (ow : Bool) (c fr ev nx) (s : St α)
    (e : s = ⟨pre ++ ⟨p1, a + (m + 1), none⟩ ::
      (mid ++ ⟨p2, d + 1 + k, none⟩ :: post), c, fr, ev, nx⟩) (h : WF S s) :
    Runs (setEmptyMulti (total pre + a) (total pre + (a + (m + 1 + (total mid + d)))) pre.length
        (pre.length + (mid.length + 1)) ow s)
      (fun r s' => Eff S True True s s'
        (cells pre ++ (List.replicate a none ++ List.replicate (m + 1 + (total mid + (d + 1))) none ++ List.replicate k none) ++ cells post) []
        (if ow then [] else typed mid)
        ∧ Holds s' r (total pre + a)) := by
  subst e
  have hS' : ¬ S none := fun h => hS _ h rfl
  clear hS
  cases ow
  go h

theorem emptyMulti_NA (S : Option Ty → Prop) (hS : ∀ t, S t → t ≠ none) (pre mid post : List (Blk α))
    (p1 a m : Nat)
    (p2 i2 : Nat) (t2 : Ty) (y2 : α) (vd : List α) (ow : Bool) (c fr ev nx) (s : St α)
    (e : s = ⟨pre ++ ⟨p1, a + (m + 1), none⟩ ::
      (mid ++ ⟨p2, vd.length + 1, some ⟨i2, t2, y2 :: vd⟩⟩ :: post), c, fr, ev, nx⟩) (h : WF S s) :
    Runs (setEmptyMulti (total pre + a) (total pre + (a + (m + 1 + (total mid + vd.length)))) pre.length
        (pre.length + (mid.length + 1)) ow s)
      (fun r s' => Eff S True True s s'
        (cells pre ++ (List.replicate a none ++ List.replicate (m + 1 + (total mid + (vd.length + 1))) none) ++ cells post) []
        (if ow then [] else typed mid ++ (y2 :: vd).map (fun v => (t2, v)))
        ∧ Holds s' r (total pre + a)) := by
  subst e
  have hS' : ¬ S none := fun h => hS _ h rfl
  clear hS
  cases ow
  all_goals nexts0 post
  go h

theorem emptyMulti_NP (S : Option Ty → Prop) (hS : ∀ t, S t → t ≠ none) (pre mid post : List (Blk α))
    (p1 a m : Nat)
    (p2 i2 : Nat) (t2 : Ty) (y2 : α) (vd vb : List α) (hb : vb ≠ []) (ow : Bool) (c fr ev nx) (s : St α)
    (e : s = ⟨pre ++ ⟨p1, a + (m + 1), none⟩ ::
      (mid ++ ⟨p2, vd.length + 1 + vb.length, some ⟨i2, t2, y2 :: (vd ++ vb)⟩⟩ :: post), c, fr, ev, nx⟩) (h : WF S s) :
    Runs (setEmptyMulti (total pre + a) (total pre + (a + (m + 1 + (total mid + vd.length)))) pre.length
        (pre.length + (mid.length + 1)) ow s)
      (fun r s' => Eff S True True s s'
        (cells pre ++ (List.replicate a none ++ List.replicate (m + 1 + (total mid + (vd.length + 1))) none ++ vb.map (fun v => some (t2, v))) ++ cells post) []
        (if ow then [] else typed mid ++ (y2 :: vd).map (fun v => (t2, v)))
        ∧ Holds s' r (total pre + a)) := by
  subst e
  have hS' : ¬ S none := fun h => hS _ h rfl
  have hb' : 0 < vb.length := List.length_pos_iff.2 hb
  have hb2 : ¬ vb.length = 0 := by omega
  clear hS
  cases ow
  go h

theorem emptyMulti_AN (S : Option Ty → Prop) (hS : ∀ t, S t → t ≠ none) (pre mid post : List (Blk α))
    (p1 i1 : Nat) (t1 : Ty) (y1 : α) (vm : List α)
    (p2 d k : Nat) (ow : Bool) (c fr ev nx) (s : St α)
    (e : s = ⟨pre ++ ⟨p1, vm.length + 1, some ⟨i1, t1, y1 :: vm⟩⟩ ::
      (mid ++ ⟨p2, d + 1 + k, none⟩ :: post), c, fr, ev, nx⟩) (h : WF S s) :
    Runs (setEmptyMulti (total pre) (total pre + ((vm.length + 1 + (total mid + d)))) pre.length
        (pre.length + (mid.length + 1)) ow s)
      (fun r s' => Eff S True True s s'
        (cells pre ++ (List.replicate (vm.length + 1 + (total mid + (d + 1))) none ++ List.replicate k none) ++ cells post) []
        (if ow then [] else (y1 :: vm).map (fun v => (t1, v)) ++ typed mid)
        ∧ Holds s' r (total pre)) := by
  subst e
  have hS' : ¬ S none := fun h => hS _ h rfl
  clear hS
  cases ow
  all_goals prevs0 pre
  go h

theorem emptyMulti_AA (S : Option Ty → Prop) (hS : ∀ t, S t → t ≠ none) (pre mid post : List (Blk α))
    (p1 i1 : Nat) (t1 : Ty) (y1 : α) (vm : List α)
    (p2 i2 : Nat) (t2 : Ty) (y2 : α) (vd : List α) (ow : Bool) (c fr ev nx) (s : St α)
    (e : s = ⟨pre ++ ⟨p1, vm.length + 1, some ⟨i1, t1, y1 :: vm⟩⟩ ::
      (mid ++ ⟨p2, vd.length + 1, some ⟨i2, t2, y2 :: vd⟩⟩ :: post), c, fr, ev, nx⟩) (h : WF S s) :
    Runs (setEmptyMulti (total pre) (total pre + ((vm.length + 1 + (total mid + vd.length)))) pre.length
        (pre.length + (mid.length + 1)) ow s)
      (fun r s' => Eff S True True s s'
        (cells pre ++ (List.replicate (vm.length + 1 + (total mid + (vd.length + 1))) none) ++ cells post) []
        (if ow then [] else (y1 :: vm).map (fun v => (t1, v)) ++ typed mid ++ (y2 :: vd).map (fun v => (t2, v)))
        ∧ Holds s' r (total pre)) := by
  subst e
  have hS' : ¬ S none := fun h => hS _ h rfl
  clear hS
  cases ow
  all_goals prevs0 pre
  all_goals nexts0 post
  go h

theorem emptyMulti_AP (S : Option Ty → Prop) (hS : ∀ t, S t → t ≠ none) (pre mid post : List (Blk α))
    (p1 i1 : Nat) (t1 : Ty) (y1 : α) (vm : List α)
    (p2 i2 : Nat) (t2 : Ty) (y2 : α) (vd vb : List α) (hb : vb ≠ []) (ow : Bool) (c fr ev nx) (s : St α)
    (e : s = ⟨pre ++ ⟨p1, vm.length + 1, some ⟨i1, t1, y1 :: vm⟩⟩ ::
      (mid ++ ⟨p2, vd.length + 1 + vb.length, some ⟨i2, t2, y2 :: (vd ++ vb)⟩⟩ :: post), c, fr, ev, nx⟩) (h : WF S s) :
    Runs (setEmptyMulti (total pre) (total pre + ((vm.length + 1 + (total mid + vd.length)))) pre.length
        (pre.length + (mid.length + 1)) ow s)
      (fun r s' => Eff S True True s s'
        (cells pre ++ (List.replicate (vm.length + 1 + (total mid + (vd.length + 1))) none ++ vb.map (fun v => some (t2, v))) ++ cells post) []
        (if ow then [] else (y1 :: vm).map (fun v => (t1, v)) ++ typed mid ++ (y2 :: vd).map (fun v => (t2, v)))
        ∧ Holds s' r (total pre)) := by
  subst e
  have hS' : ¬ S none := fun h => hS _ h rfl
  have hb' : 0 < vb.length := List.length_pos_iff.2 hb
  have hb2 : ¬ vb.length = 0 := by omega
  clear hS
  cases ow
  all_goals prevs0 pre
  go h

theorem emptyMulti_PN (S : Option Ty → Prop) (hS : ∀ t, S t → t ≠ none) (pre mid post : List (Blk α))
    (p1 i1 : Nat) (t1 : Ty) (y1 : α) (va vm : List α) (ha : va ≠ [])
    (p2 d k : Nat) (ow : Bool) (c fr ev nx) (s : St α)
    (e : s = ⟨pre ++ ⟨p1, va.length + (vm.length + 1), some ⟨i1, t1, va ++ (y1 :: vm)⟩⟩ ::
      (mid ++ ⟨p2, d + 1 + k, none⟩ :: post), c, fr, ev, nx⟩) (h : WF S s) :
    Runs (setEmptyMulti (total pre + va.length) (total pre + (va.length + (vm.length + 1 + (total mid + d)))) pre.length
        (pre.length + (mid.length + 1)) ow s)
      (fun r s' => Eff S True True s s'
        (cells pre ++ (va.map (fun v => some (t1, v)) ++ List.replicate (vm.length + 1 + (total mid + (d + 1))) none ++ List.replicate k none) ++ cells post) []
        (if ow then [] else (y1 :: vm).map (fun v => (t1, v)) ++ typed mid)
        ∧ Holds s' r (total pre + va.length)) := by
  subst e
  have hS' : ¬ S none := fun h => hS _ h rfl
  have ha' : 0 < va.length := List.length_pos_iff.2 ha
  have ha2 : ¬ va.length = 0 := by omega
  clear hS
  cases ow
  go h

theorem emptyMulti_PA (S : Option Ty → Prop) (hS : ∀ t, S t → t ≠ none) (pre mid post : List (Blk α))
    (p1 i1 : Nat) (t1 : Ty) (y1 : α) (va vm : List α) (ha : va ≠ [])
    (p2 i2 : Nat) (t2 : Ty) (y2 : α) (vd : List α) (ow : Bool) (c fr ev nx) (s : St α)
    (e : s = ⟨pre ++ ⟨p1, va.length + (vm.length + 1), some ⟨i1, t1, va ++ (y1 :: vm)⟩⟩ ::
      (mid ++ ⟨p2, vd.length + 1, some ⟨i2, t2, y2 :: vd⟩⟩ :: post), c, fr, ev, nx⟩) (h : WF S s) :
    Runs (setEmptyMulti (total pre + va.length) (total pre + (va.length + (vm.length + 1 + (total mid + vd.length)))) pre.length
        (pre.length + (mid.length + 1)) ow s)
      (fun r s' => Eff S True True s s'
        (cells pre ++ (va.map (fun v => some (t1, v)) ++ List.replicate (vm.length + 1 + (total mid + (vd.length + 1))) none) ++ cells post) []
        (if ow then [] else (y1 :: vm).map (fun v => (t1, v)) ++ typed mid ++ (y2 :: vd).map (fun v => (t2, v)))
        ∧ Holds s' r (total pre + va.length)) := by
  subst e
  have hS' : ¬ S none := fun h => hS _ h rfl
  have ha' : 0 < va.length := List.length_pos_iff.2 ha
  have ha2 : ¬ va.length = 0 := by omega
  clear hS
  cases ow
  all_goals nexts0 post
  go h

theorem emptyMulti_PP (S : Option Ty → Prop) (hS : ∀ t, S t → t ≠ none) (pre mid post : List (Blk α))
    (p1 i1 : Nat) (t1 : Ty) (y1 : α) (va vm : List α) (ha : va ≠ [])
    (p2 i2 : Nat) (t2 : Ty) (y2 : α) (vd vb : List α) (hb : vb ≠ []) (ow : Bool) (c fr ev nx) (s : St α)
    (e : s = ⟨pre ++ ⟨p1, va.length + (vm.length + 1), some ⟨i1, t1, va ++ (y1 :: vm)⟩⟩ ::
      (mid ++ ⟨p2, vd.length + 1 + vb.length, some ⟨i2, t2, y2 :: (vd ++ vb)⟩⟩ :: post), c, fr, ev, nx⟩) (h : WF S s) :
    Runs (setEmptyMulti (total pre + va.length) (total pre + (va.length + (vm.length + 1 + (total mid + vd.length)))) pre.length
        (pre.length + (mid.length + 1)) ow s)
      (fun r s' => Eff S True True s s'
        (cells pre ++ (va.map (fun v => some (t1, v)) ++ List.replicate (vm.length + 1 + (total mid + (vd.length + 1))) none ++ vb.map (fun v => some (t2, v))) ++ cells post) []
        (if ow then [] else (y1 :: vm).map (fun v => (t1, v)) ++ typed mid ++ (y2 :: vd).map (fun v => (t2, v)))
        ∧ Holds s' r (total pre + va.length)) := by
  subst e
  have hS' : ¬ S none := fun h => hS _ h rfl
  have ha' : 0 < va.length := List.length_pos_iff.2 ha
  have ha2 : ¬ va.length = 0 := by omega
  have hb' : 0 < vb.length := List.length_pos_iff.2 hb
  have hb2 : ¬ vb.length = 0 := by omega
  clear hS
  cases ow
  go h

end Mdds.Mtv
