import Verif.Mtv.Multi
/-!
Effect of `push_back`, `push_back_empty`, `resize` and `clear`.
-/
namespace Mdds.Mtv
open Mdds

set_option linter.unusedSimpArgs false
set_option linter.unusedVariables false

variable {α : Type} [DecidableEq α]

/-- The part of `resize_impl` after the lookup of the last block to keep. -/
def resizeAt (newSize i n : Nat) : M α Unit := do
  resizeCut newSize i
  deleteElementBlocks (i + 1) (n - (i + 1))
  delB (i + 1) (n - (i + 1))
  setCurSize newSize

mk_ap resizeAt clear

@[mev] theorem drop_len_clr (l : List (Blk α)) : (l.map clr).drop l.length = [] := by simp


theorem pushBack_eff (S : Option Ty → Prop) (ty : Ty) (x : α) (bs c fr ev nx) (s : St α)
    (e : s = ⟨bs, c, fr, ev, nx⟩) (h : WF S s) :
    Runs (pushBack ty x s)
      (fun r s' => Eff S True True s s' (cells bs ++ [some (ty, x)]) [(ty, x)] [] ∧ Holds s' r (total bs)) := by
  subst e
  prevs ty bs
  go h

theorem appendEmpty_eff (S : Option Ty → Prop) (hS : ∀ t, S t → t ≠ none) (l : Nat) (hl : 0 < l) (bs c fr ev nx) (s : St α)
    (e : s = ⟨bs, c, fr, ev, nx⟩) (h : WF S s) :
    Runs (appendEmpty l s)
      (fun r s' => Eff S True True s s' (cells bs ++ List.replicate l none) [] [] ∧
        Holds s' (if r then bs.length else bs.length - 1) (total bs)) := by
  subst e
  have hS' : ¬ S none := fun h => hS _ h rfl
  clear hS
  prevs0 bs
  go h

theorem pushBackEmpty_eff (S : Option Ty → Prop) (hS : ∀ t, S t → t ≠ none) (bs c fr ev nx) (s : St α)
    (e : s = ⟨bs, c, fr, ev, nx⟩) (h : WF S s) :
    Runs (pushBackEmpty s)
      (fun r s' => Eff S True True s s' (cells bs ++ [none]) [] [] ∧ Holds s' r (total bs)) := by
  subst e
  have hS' : ¬ S none := fun h => hS _ h rfl
  clear hS
  prevs0 bs
  go h

theorem clear_eff (S : Option Ty → Prop) (bs c fr ev nx) (s : St α)
    (e : s = ⟨bs, c, fr, ev, nx⟩) (h : WF S s) :
    Runs (clear s) (fun _ s' => Eff S True True s s' [] [] []) := by
  subst e
  obtain ⟨ht, hc, hs⟩ := h
  simp at hc
  subst hc
  simp [mev]
  refine ⟨by simp, by simp, by simp, by simp, ?_, ?_, ?_⟩
  · intro _ z _; simp
  · simp; omega
  · intro _ z; simp; omega

theorem resizeAt_all (S : Option Ty → Prop) (pre post : List (Blk α)) (p m d) (c fr ev nx) (s : St α)
    (e : s = ⟨pre ++ ⟨p, m + 1, d⟩ :: post, c, fr, ev, nx⟩) (h : WF S s) :
    Runs (resizeAt (total pre + (m + 1)) pre.length (pre.length + (post.length + 1)) s)
      (fun _ s' => Eff S True True s s' (cells pre ++ cells [⟨p, m + 1, d⟩]) [] []) := by
  subst e
  rcases d with _ | ⟨i, t, v⟩
  go h

theorem resizeAt_none (S : Option Ty → Prop) (pre post : List (Blk α)) (p a k) (c fr ev nx) (s : St α)
    (ha : 0 < a) (hk : 0 < k)
    (e : s = ⟨pre ++ ⟨p, a + k, none⟩ :: post, c, fr, ev, nx⟩) (h : WF S s) :
    Runs (resizeAt (total pre + a) pre.length (pre.length + (post.length + 1)) s)
      (fun _ s' => Eff S True True s s' (cells pre ++ List.replicate a none) [] []) := by
  subst e
  go h

theorem resizeAt_some (S : Option Ty → Prop) (pre post : List (Blk α)) (p i t) (va vb : List α) (c fr ev nx) (s : St α)
    (ha : va ≠ []) (hb : vb ≠ []) (hm : t.managed = false)
    (e : s = ⟨pre ++ ⟨p, va.length + vb.length, some ⟨i, t, va ++ vb⟩⟩ :: post, c, fr, ev, nx⟩) (h : WF S s) :
    Runs (resizeAt (total pre + va.length) pre.length (pre.length + (post.length + 1)) s)
      (fun _ s' => Eff S True True s s' (cells pre ++ va.map (fun v => some (t, v))) [] []) := by
  subst e
  have ha' : 0 < va.length := List.length_pos_iff.2 ha
  have hbb' : 0 < vb.length := List.length_pos_iff.2 hb
  rcases Nat.eq_zero_or_pos (total pre) with hz | hz
  · go h
  · have hz2 : ¬ (total pre + (va.length + vb.length) ≤ va.length + vb.length) := by omega
    wf_split h
    subst_vars
    simp [mev, Nat.add_assoc, *]
    refine Eff.mono (lp := t.managed = false) (ep := True) ?_ (fun _ => hm) id
    eff_tac

theorem resizeAt_first (S : Option Ty → Prop) (post : List (Blk α)) (p i t) (va vb : List α) (c fr ev nx) (s : St α)
    (ha : va ≠ []) (hb : vb ≠ [])
    (e : s = ⟨⟨p, va.length + vb.length, some ⟨i, t, va ++ vb⟩⟩ :: post, c, fr, ev, nx⟩) (h : WF S s) :
    Runs (resizeAt va.length 0 (post.length + 1) s)
      (fun _ s' => Eff S True True s s' (va.map (fun v => some (t, v))) [] []) := by
  subst e
  have ha' : 0 < va.length := List.length_pos_iff.2 ha
  have hbb' : 0 < vb.length := List.length_pos_iff.2 hb
  go h

end Mdds.Mtv
