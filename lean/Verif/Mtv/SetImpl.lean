import Verif.Mtv.SetLemmas
/-!
Effect of `set_impl` on a decomposed block list.
-/
namespace Mdds.Mtv
open Mdds

set_option linter.unusedSimpArgs false
set_option linter.unusedVariables false

variable {α : Type} [DecidableEq α]

theorem setImpl_some (S : Option Ty → Prop) (hS : ∀ t, S t → t ≠ none) (pre post : List (Blk α))
    (p n i : Nat) (t : Ty) (va vb : List α) (y : α) (ty : Ty) (x : α) (c fr ev nx) (s : St α)
    (hn : n = va.length + (vb.length + 1))
    (e : s = ⟨pre ++ ⟨p, n, some ⟨i, t, va ++ y :: vb⟩⟩ :: post, c, fr, ev, nx⟩)
    (h : WF S s) :
    Runs (setImpl (total pre + va.length) pre.length ty x s)
      (fun r s' => Eff S True True s s'
        (cells pre ++ (va.map (fun v => some (t, v)) ++ some (ty, x) :: vb.map (fun v => some (t, v)))
          ++ cells post) [(ty, x)] []
        ∧ Holds s' r (total pre + va.length)) := by
  have hS' : ¬ S none := fun h => hS _ h rfl
  have hp : p = total pre := by subst e; wf_split h; assumption
  subst hp
  by_cases hty : t = ty
  · subst hty
    subst e hn
    wf_split h
    simp [setImpl, mev, Nat.add_assoc]
    fin_tac
  · have hty' : ¬ ty = t := fun h => hty h.symm
    rcases va with _ | ⟨v0, va⟩
    · rcases vb with _ | ⟨w0, vb⟩
      · have := setCellToSizeOne_eff S hS pre post (total pre) i t y ty x hty c fr ev nx s (by simpa [hn] using e) h
        subst e
        simpa [setImpl, getB_ap, hty, hn] using this
      · rcases snoc_cases pre with rfl | ⟨pre, ⟨qp, qs, qd⟩, rfl⟩
        · have := setCellToTop_eff S [] post 0 i n t (w0 :: vb) y (by simp) ty x hty c fr ev nx s (by simp [hn]) e h (by simp)
          have h2 := this.bind (f := fun p => .ok (0, p.2)) (Q := fun r s' => Eff S True True s s' (some (ty, x) :: (w0 :: vb).map (fun v => some (t, v))
             ++ cells post) [(ty, x)] [] ∧ Holds s' r 0) (by intro r s' h; simpa [runs_ok] using h)
          subst e
          simpa [setImpl, getB_ap, hty, hn, isPrevOfType_zero] using h2
        · by_cases hq : (Blk.mk qp qs qd).ty = some ty
          · rcases qd with _ | ⟨qi, qt, qv⟩
            · simp at hq
            · simp at hq
              subst hq e hn
              wf_split h
              simp [setImpl, mev, Nat.add_assoc, hty]
              fin_tac
          · have hq' : ¬ some ty = (Blk.mk qp qs qd).ty := fun h => hq h.symm
            have := setCellToTop_eff S (pre ++ [⟨qp, qs, qd⟩]) post _ i n t (w0 :: vb) y (by simp) ty x hty c fr ev nx s (by simp [hn]) e h
              (by subst e; wf_split h; simp_all)
            have h2 := this.bind (f := fun p => .ok ((pre ++ [(⟨qp, qs, qd⟩ : Blk α)]).length, p.2)) (Q := fun r s' => Eff S True True s s' (cells (pre ++ [⟨qp, qs, qd⟩])
               ++ (some (ty, x) :: (w0 :: vb).map (fun v => some (t, v)))
             ++ cells post) [(ty, x)] [] ∧ Holds s' r (total (pre ++ [⟨qp, qs, qd⟩]))) (by intro r s' h; simpa [runs_ok] using h)
            subst e
            have e3 : total pre + (qs + 0) = total pre + qs := by omega
            simpa [setImpl, getB_ap, hty, hn, isPrevOfType_succ, hq'] using h2
    · rcases snoc_cases vb with rfl | ⟨vb, w, rfl⟩
      · rcases post with _ | ⟨⟨np, ns, nd⟩, post⟩
        · have := setCellToBottom_eff S pre [] _ i n t (v0 :: va) y (by simp) ty x hty c fr ev nx s (by simp [hn]) e h (by simp)
          have h2 := this.bind (f := fun p => .ok (p.2.blocks.length - 1, p.2)) (Q := fun r s' => Eff S True True s s'
            (cells pre ++ ((v0 :: va).map (fun v => some (t, v)) ++ [some (ty, x)]) ++ cells []) [(ty, x)] []
            ∧ Holds s' r (total pre + (v0 :: va).length))
            (by intro r s' h; rw [runs_ok]; refine ⟨h.1, ?_⟩; rw [h.2.2]; exact h.2.1)
          subst e
          rcases pre with _ | ⟨q, pre⟩
          · simpa [setImpl, getB_ap, nBlocks_ap, hty, hn] using h2
          · simpa [setImpl, getB_ap, nBlocks_ap, hty, hn, Nat.add_assoc] using h2
        · by_cases hq : (Blk.mk np ns nd).ty = some ty
          · rcases nd with _ | ⟨ni, nt, nv⟩
            · simp at hq
            · simp at hq
              subst hq
              have := setAtEndIntoNext_eff S pre post _ i n np ni ns t (v0 :: va) nv y (by simp) nt x hty c fr ev nx s
                (by simp [hn]) e h
              subst e
              rcases pre with _ | ⟨q, pre⟩
              · simpa [setImpl, getB_ap, nBlocks_ap, isNextOfType_ap, hty, hn] using this
              · simpa [setImpl, getB_ap, nBlocks_ap, isNextOfType_ap, hty, hn, Nat.add_assoc] using this
          · have hq' : ¬ some ty = (Blk.mk np ns nd).ty := fun h => hq h.symm
            have := setCellToBottom_eff S pre (⟨np, ns, nd⟩ :: post) _ i n t (v0 :: va) y (by simp) ty x hty c fr ev nx s (by simp [hn]) e h
              (by subst e; wf_split h; simp_all)
            have h2 := this.bind (f := fun p => .ok (pre.length + 1, p.2)) (Q := fun r s' => Eff S True True s s'
              (cells pre ++ ((v0 :: va).map (fun v => some (t, v)) ++ [some (ty, x)]) ++ cells (⟨np, ns, nd⟩ :: post)) [(ty, x)] []
              ∧ Holds s' r (total pre + (v0 :: va).length))
              (by intro r s' h; rw [runs_ok]; exact ⟨h.1, h.2.1⟩)
            subst e
            rcases pre with _ | ⟨q, pre⟩
            · simpa [setImpl, getB_ap, nBlocks_ap, isNextOfType_ap, hq', hty, hn] using h2
            · simpa [setImpl, getB_ap, nBlocks_ap, isNextOfType_ap, hq', hty, hn, Nat.add_assoc] using h2
      · have := setCellToMiddle_some S hS' pre post (total pre) i t (v0 :: va) (vb ++ [w]) y (by simp) (by simp) ty x hty c fr ev nx s
          (by simpa [hn, Nat.add_assoc, Nat.add_comm, Nat.add_left_comm] using e) h
        subst e
        have h1 : total pre + (va.length + 1) + 1 < total pre + n := by simp [hn]; omega
        simpa [setImpl, getB_ap, hty, h1] using this

end Mdds.Mtv
