import Verif.Mtv.Multi
/-!
Effect of `merge_with_adjacent_blocks` on a store whose blocks are separated except
around the block that is merged.
-/
namespace Mdds.Mtv
open Mdds

set_option linter.unusedSimpArgs false
set_option linter.unusedVariables false

variable {α : Type} [DecidableEq α]

/-- No separation is claimed. -/
def Any : Option Ty → Prop := fun _ => True

@[simp] theorem sep_any (bs : List (Blk α)) : Sep Any bs := by
  simp only [Sep]
  generalize bs.map Blk.ty = l
  induction l with
  | nil => simp
  | cons a l ih =>
    cases l with
    | nil => simp
    | cons b l => simp [List.isChain_cons_cons, Any]; simpa [Any] using ih

theorem Eff.trans {S1 S2 : Option Ty → Prop} {lp ep : Prop} {s s1 s2 : St α} {L1 L2 i1 i2 o1 o2}
    (h1 : Eff S1 lp ep s s1 L1 i1 o1) (h2 : Eff S2 lp ep s1 s2 L2 i2 o2) :
    Eff S2 lp ep s s2 L2 (i1 ++ i2) (o1 ++ o2) := by
  refine ⟨h2.tile, h2.cur, h2.sep, h2.cells, ?_, ?_, ?_⟩
  · intro hl z hz
    have a := h1.led hl z hz
    have b := h2.led hl z hz
    rw [List.count_append, List.count_append]
    omega
  · have a := h1.evn
    have b := h2.evn
    omega
  · intro he i
    have a := h1.ev he i
    have b := h2.ev he i
    omega

/-- The block at `i` was merged with its neighbours; the first `P.length` blocks were not touched. -/
structure Merged (S : Option Ty → Prop) (P : List (Blk α)) (s s' : St α) (i r : Nat) (b : Blk α) : Prop where
  eff : Eff Any True True s s' (cells s.blocks) [] []
  keep : ∃ N, s'.blocks = P ++ N ∧ Sep S N ∧ N ≠ []
  holds : Holds s' (if r = 0 then i else i - 1) b.pos
  stay : (i = 0 ∨ ∀ x, s.blocks[i - 1]? = some x → x.ty ≠ b.ty) → r = 0

/-- Close a `Merged` goal on a concrete final state. -/
macro "merged_tac" : tactic => `(tactic|
  (refine ⟨?_, ⟨_, rfl, ?_, ?_⟩, ?_, ?_⟩
   · refine ⟨?_, ?_, sep_any _, ?_, ?_, ?_, ?_⟩
     · simp (config := { failIfUnchanged := false }) only [tile_append, tile_cons, tile_nil, ok_mk_none, ok_mk_some,
         List.length_append, List.length_cons, List.length_nil, List.length_map, and_true, true_and,
         total_append, total_cons, total_nil, Nat.zero_add, List.append_assoc, List.cons_append, List.nil_append]
       and_intros <;> first
         | assumption
         | omega
         | exact tile_eq (by assumption) (by arith_tac)
     · arith_tac
     · first | rfl | (simp; done) | (simp [rep_app]; done)
     · intro hlp z hz; (try simp [List.count_append, List.count_cons, List.count_replicate, count_map_some]); (try omega)
     · (try simp); try omega
     · intro hep z; (try simp [List.count_append, List.count_cons]); try omega
   · clear_arith
     simp (config := { failIfUnchanged := false }) [*] at *
     first | done | (simp_all; done) | grind
   · simp
   · first | (simp [holds_mk]; done) | (simp [holds_mk]; omega) | (rw [if_neg (by omega)]; simp [holds_mk]; omega) | (rw [if_neg (by omega)]; simp [holds_mk]; done)
   · first | (intro _; rfl) | (intro hst; exfalso; simp at hst; done) | (intro hst; exfalso; simp at hst; exact hst _ rfl rfl) | (intro hst; exfalso; simp [*] at hst)))

theorem merge_first (S : Option Ty → Prop) (b : Blk α) (R : List (Blk α)) (c fr ev nx) (s : St α)
    (e : s = ⟨b :: R, c, fr, ev, nx⟩) (ht : Tile 0 s.blocks) (hc : s.cur = total s.blocks) (hR : Sep S R) :
    Runs (mergeWithAdjacent 0 s) (fun r s' => Merged S [] s s' 0 r b) := by
  subst e
  rcases b with ⟨p, n, _ | ⟨i, t, v⟩⟩ <;> rcases next0_cases R with rfl | ⟨R, p', n', rfl⟩ | ⟨R, p', n', i', t', v', rfl⟩
  all_goals simp at ht hc hR
  all_goals casesm* _ ∧ _
  all_goals subst_vars
  all_goals try (by_cases htt : t = t')
  all_goals subst_vars
  all_goals simp [mev, Nat.add_assoc, *]
  all_goals merged_tac

theorem merge_after (S : Option Ty → Prop) (P L : List (Blk α)) (x b : Blk α) (R : List (Blk α)) (c fr ev nx)
    (s : St α) (e : s = ⟨P ++ (L ++ x :: b :: R), c, fr, ev, nx⟩) (ht : Tile 0 s.blocks)
    (hc : s.cur = total s.blocks) (hL : SL S L x.ty) (hR : Sep S R) :
    Runs (mergeWithAdjacent ((P ++ L).length + 1) s)
      (fun r s' => Merged S P s s' ((P ++ L).length + 1) r b) := by
  have e' : s = ⟨(P ++ L) ++ x :: b :: R, c, fr, ev, nx⟩ := by rw [e]; simp
  have key : ∀ Q : List (Blk α), Q = P ++ L → Runs (mergeWithAdjacent (Q.length + 1) ⟨Q ++ x :: b :: R, c, fr, ev, nx⟩)
      (fun r s' => Merged S P s s' (Q.length + 1) r b) := by
    intro Q hQ
    rw [e] at ht hc
    rcases x with ⟨p0, n0, _ | ⟨i0, t0, v0⟩⟩ <;> rcases b with ⟨p, n, _ | ⟨i, t, v⟩⟩ <;>
      rcases next0_cases R with rfl | ⟨R, p', n', rfl⟩ | ⟨R, p', n', i', t', v', rfl⟩
    all_goals simp at ht hc hR hL
    all_goals casesm* _ ∧ _
    all_goals try (by_cases htt : t0 = t)
    all_goals try (by_cases htu : t = t')
    all_goals try (by_cases htv : t0 = t')
    all_goals subst_vars
    all_goals try contradiction
    all_goals try (have htu' : ¬ t' = t := fun e => htu e.symm)
    all_goals simp [mev, Nat.add_assoc, *]
    all_goals merged_tac
  have := key _ rfl
  rwa [← e'] at this

/-- `merge_with_adjacent_blocks` on a block between two separated stretches. -/
theorem merge_ok (S : Option Ty → Prop) (P L : List (Blk α)) (b : Blk α) (R : List (Blk α)) (s : St α)
    (hPL : P = [] ∨ L ≠ []) (e : s.blocks = P ++ (L ++ b :: R)) (ht : Tile 0 s.blocks)
    (hc : s.cur = total s.blocks) (hL : Sep S L) (hR : Sep S R) :
    Runs (mergeWithAdjacent (P.length + L.length) s)
      (fun r s' => Merged S P s s' (P.length + L.length) r b) := by
  rcases s with ⟨bs, c, fr, ev, nx⟩
  simp only at e
  subst e
  rcases snoc_cases L with rfl | ⟨L, x, rfl⟩
  · obtain rfl : P = [] := by simpa using hPL
    exact merge_first S b R c fr ev nx _ (by simp) ht hc hR
  · have := merge_after S P L x b R c fr ev nx ⟨P ++ (L ++ [x] ++ b :: R), c, fr, ev, nx⟩ (by simp) ht hc (by simpa using hL) hR
    simpa [Nat.add_assoc] using this

end Mdds.Mtv
