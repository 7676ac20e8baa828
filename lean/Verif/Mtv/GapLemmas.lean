import Verif.Mtv.TransferLemmas
/-!
Closing the gap a transfer leaves in the source.
-/
namespace Mdds.Mtv
open Mdds

set_option linter.unusedSimpArgs false
set_option linter.unusedVariables false
set_option linter.unusedSectionVars false

variable {α : Type} [DecidableEq α]

/-- The state `s'` is well formed and shows `L`; values and events balance with `s`. -/
structure Done (S : Option Ty → Prop) (s s' : St α) (L X Y : List (Option (Ty × α))) : Prop where
  tile : Tile 0 s'.blocks
  cur : s'.cur = total s'.blocks
  sep : Sep S s'.blocks
  cells : cells s'.blocks = L
  led : Led s s' X Y

/-- Close a `Done` goal (with a `Holds`) on concrete states. -/
macro "done_tac" : tactic => `(tactic|
  (refine ⟨⟨?_, ?_, ?_, ?_, ⟨?_, ?_, ?_⟩⟩, ?_⟩
   · simp (config := { failIfUnchanged := false }) only [tile_append, tile_cons, tile_nil, ok_mk_none, ok_mk_some,
       List.length_append, List.length_cons, List.length_nil, List.length_map, and_true, true_and,
       total_append, total_cons, total_nil, Nat.zero_add, List.append_assoc, List.cons_append, List.nil_append]
     and_intros <;> first
       | assumption
       | omega
       | exact tile_eq (by assumption) (by arith_tac)
   · arith_tac
   · clear_arith
     simp (config := { failIfUnchanged := false }) [*] at *
     first | done | (simp_all; done) | grind
   · first | rfl | (simp; done) | (simp [rep_app]; done) | (simp [rep_app]; omega)
   · intro z hz; (try simp [List.count_append, List.count_cons, List.count_replicate, count_map_some, *]); (try omega)
   · (try simp [*]); try omega
   · intro z; (try simp [List.count_append, List.count_cons, *]); try omega
   · first | (simp [holds_mk]; done) | (simp [holds_mk]; omega)))

@[simp] theorem nils_cells (Z : List (Blk α)) (h : ∀ z ∈ Z, Blk.nil z) : cells Z = [] := by
  induction Z with
  | nil => rfl
  | cons z Z ih => simp [nil_cells (h z (by simp)), ih (fun y hy => h y (by simp [hy]))]
@[simp] theorem nils_ids (Z : List (Blk α)) (h : ∀ z ∈ Z, Blk.nil z) : ids Z = [] := by
  induction Z with
  | nil => rfl
  | cons z Z ih => simp [nil_ids (h z (by simp)), ih (fun y hy => h y (by simp [hy]))]

theorem fillGap_ok {S : Option Ty → Prop} (hS : ¬ S none) (A Z B : List (Blk α)) (z : Blk α) (len : Nat) (s : St α)
    (e : s.blocks = A ++ (z :: Z ++ B)) (hz : z.nil) (hZ : ∀ y ∈ Z, Blk.nil y) (hA : Sep S A) (hB : Sep S B)
    (tA : Tile 0 A) (tB : Tile (total A + len) B) (hl : 0 < len) (hc : s.cur = total A + len + total B) :
    Runs (fillGap A.length (A.length + Z.length) len s) (fun r s' =>
      Done S s s' (cells A ++ (List.replicate len none ++ cells B)) [] [] ∧ Holds s' r (total A)) := by
  rcases s with ⟨bs, c, fr, ev, nx⟩
  simp only at e
  subst e
  rcases z with ⟨zp, zn, zd⟩
  obtain ⟨rfl, rfl⟩ : zn = 0 ∧ zd = none := hz
  have hcz := nils_cells Z hZ
  have hiz := nils_ids Z hZ
  clear hZ
  rcases prev0_cases A with rfl | ⟨A, p, n, rfl⟩ | ⟨A, p, n, i, t, v, rfl⟩
  · rcases next0_cases B with rfl | ⟨B, p', n', rfl⟩ | ⟨B, p', n', i', t', v', rfl⟩ <;> rcases Z with _ | ⟨w, Z⟩
    all_goals simp at tA tB hc hA hB hcz hiz
    all_goals (try casesm* _ ∧ _)
    all_goals subst_vars
    all_goals simp [mev, Nat.add_assoc, *]
    all_goals done_tac
  · rcases prev0_cases A with rfl | ⟨A, q, m, rfl⟩ | ⟨A, q, m, i, t, v, rfl⟩ <;>
      rcases next0_cases B with rfl | ⟨B, p', n', rfl⟩ | ⟨B, p', n', i', t', v', rfl⟩
    all_goals simp at tA tB hc hA hB hcz hiz
    all_goals (try casesm* _ ∧ _)
    all_goals try contradiction
    all_goals subst_vars
    all_goals simp [mev, Nat.add_assoc, *]
    all_goals done_tac
  · rcases next0_cases B with rfl | ⟨B, p', n', rfl⟩ | ⟨B, p', n', i', t', v', rfl⟩ <;> rcases Z with _ | ⟨w, Z⟩
    all_goals simp at tA tB hc hA hB hcz hiz
    all_goals (try casesm* _ ∧ _)
    all_goals subst_vars
    all_goals simp [mev, Nat.add_assoc, *]
    all_goals done_tac

theorem closeGap_ok {S : Option Ty → Prop} (hS : ¬ S none) (SA Z SB : List (Blk α)) (b1 b2 : Blk α) (k1 k2 : Bool)
    (len : Nat) (s : St α) (e : s.blocks = SA ++ b1 :: (Z ++ b2 :: SB)) (hZ : ∀ y ∈ Z, Blk.nil y)
    (h1 : k1 = false → b1.nil) (h2 : k2 = false → b2.nil) (A B : List (Blk α))
    (eA : A = SA ++ (if k1 then [b1] else [])) (eB : B = (if k2 then [b2] else []) ++ SB)
    (hne : Z = [] → ¬ (b1.ty = none ∧ b2.ty = none ∧ k1 = true ∧ k2 = true)) (hA : Sep S A) (hB : Sep S B)
    (tA : Tile 0 A) (tB : Tile (total A + len) B) (hl : 0 < len) (hc : s.cur = total A + len + total B) :
    Runs (closeGap SA.length (SA.length + (Z.length + 1)) len k1 k2 s) (fun r s' =>
      Done S s s' (cells A ++ (List.replicate len none ++ cells B)) [] [] ∧ Holds s' r (total A)) := by
  by_cases hk : k1 = true ∧ k2 = true ∧ Z = []
  · obtain ⟨rfl, rfl, rfl⟩ := hk
    rcases s with ⟨bs, c, fr, ev, nx⟩
    simp only at e
    subst e eA eB
    rcases b1 with ⟨p1, n1, _ | ⟨i1, t1, v1⟩⟩ <;> rcases b2 with ⟨p2, n2, _ | ⟨i2, t2, v2⟩⟩
    all_goals simp at tA tB hc hA hB hne
    all_goals (try casesm* _ ∧ _)
    all_goals subst_vars
    all_goals simp [mev, Nat.add_assoc, *]
    all_goals done_tac
  · have hgo : ∃ z Z', b1 :: (Z ++ b2 :: SB) = (if k1 then [b1] else []) ++ (z :: Z' ++ B) ∧ z.nil ∧ (∀ y ∈ Z', Blk.nil y) ∧
        SA.length + (Z.length + 1) = SA.length + (if k1 then 1 else 0) + Z'.length + (if k2 then 1 else 0) := by
      subst eB
      cases k1 <;> cases k2
      · refine ⟨b1, Z ++ [b2], by simp, h1 rfl, ?_, by simp⟩
        intro y hy
        rcases List.mem_append.1 hy with hy | hy
        · exact hZ y hy
        · obtain rfl : y = b2 := by simpa using hy
          exact h2 rfl
      · exact ⟨b1, Z, by simp, h1 rfl, hZ, by simp; omega⟩
      · rcases Z with _ | ⟨z, Z⟩
        · exact ⟨b2, [], by simp, h2 rfl, by simp, by simp⟩
        · refine ⟨z, Z ++ [b2], by simp, hZ z (by simp), ?_, by simp; omega⟩
          intro y hy
          rcases List.mem_append.1 hy with hy | hy
          · exact hZ y (by simp [hy])
          · obtain rfl : y = b2 := by simpa using hy
            exact h2 rfl
      · rcases Z with _ | ⟨z, Z⟩
        · simp at hk
        · exact ⟨z, Z, by simp, hZ z (by simp), fun y hy => hZ y (by simp [hy]), by simp; omega⟩
    obtain ⟨z, Z', e1, hz, hZ', hlen⟩ := hgo
    have key := fillGap_ok hS A Z' B z len s (by rw [e, e1, eA]; simp) hz hZ' hA hB tA tB hl hc
    have hAl : A.length = SA.length + (if k1 then 1 else 0) := by rw [eA]; cases k1 <;> simp
    have ed1 : (if k1 = true then SA.length + 1 else SA.length) = A.length := by rw [hAl]; cases k1 <;> simp
    have ed2 : (if k2 = true then SA.length + (Z.length + 1) - 1 else SA.length + (Z.length + 1)) = A.length + Z'.length := by
      rw [hlen, hAl]; cases k2 <;> simp
    unfold closeGap
    simp only [ed1, ed2]
    rw [if_neg (by omega)]
    exact key

/-! ### The destination after `set_empty` -/

/-- In a well-formed store a stretch of empty cells lies in one block. -/
theorem empty_block {S : Option Ty → Prop} (hS : ¬ S none) {t : St α} (h : WF S t) {r d m : Nat} (hh : Holds t r d)
    (hL : ∀ i, d ≤ i → i < d + (m + 1) → tyAt (cells t.blocks) i = none) (hc : d + (m + 1) ≤ t.cur) :
    ∃ pre x k post, t.blocks = pre ++ ⟨total pre, x + (m + 1 + k), none⟩ :: post ∧ r = pre.length ∧ d = total pre + x := by
  obtain ⟨b, hb, h1, h2⟩ := hh
  have hr := lt_of_get hb
  have e : t.blocks = t.blocks.take r ++ b :: t.blocks.drop (r + 1) := by
    rw [← (List.getElem?_eq_some_iff.1 hb).2]; simp
  have hrl : (t.blocks.take r).length = r := by simp; omega
  generalize t.blocks.take r = pre at e hrl
  generalize t.blocks.drop (r + 1) = post at e
  obtain ⟨ok, hpl, hp⟩ := ok_of_split h e
  have hcl := cells_length_of_ok ok
  have hty : b.ty = none := by
    rw [← hL d (by omega) (by omega), e]
    simp only [cells_append, cells_cons]
    exact (tyAt_block ok (by omega) (by omega)).symm
  have hend : d + (m + 1) ≤ b.pos + b.size := by
    by_contra hlt
    rcases post with _ | ⟨y, post⟩
    · have := h.cur
      rw [e] at this
      simp at this
      omega
    · obtain ⟨ok2, hpl2, hp2⟩ := ok_of_split (pre := pre ++ [b]) (b := y) (post := post) h (by rw [e]; simp)
      have hy : y.ty = none := by
        rw [← hL (b.pos + b.size) (by omega) (by omega), e]
        have hx : cells (pre ++ b :: y :: post) = cells (pre ++ [b]) ++ (y.cells ++ cells post) := by simp
        rw [hx]
        have := ok2.1
        refine (tyAt_block ok2 ?_ ?_).symm
        · rw [hpl2]; simp; omega
        · rw [hpl2]; simp; omega
      have hs := h.sep
      rw [e] at hs
      simp at hs
      exact hS (hty ▸ hs.2.1 (by rw [hty, hy]))
  refine ⟨pre, d - total pre, b.pos + b.size - (d + (m + 1)), post, ?_, hrl.symm, by omega⟩
  rw [e]
  rcases b with ⟨bp, bn, _ | d'⟩
  · simp at hp hend h1 h2 ⊢
    omega
  · simp at hty

/-- What `set_empty` leaves in the destination. -/
structure Emptied (S : Option Ty → Prop) (t t1 : St α) (d m r : Nat) (pre post : List (Blk α)) (x k : Nat) : Prop where
  blocks : t1.blocks = pre ++ ⟨total pre, x + (m + 1 + k), none⟩ :: post
  index : r = pre.length
  at_ : d = total pre + x
  wf : WF S t1
  led : Led t t1 [] []
  above : cells pre ++ List.replicate x none = (cells t.blocks).take d
  below : List.replicate k none ++ cells post = (cells t.blocks).drop (d + (m + 1))
  cur : t1.cur = t.cur

theorem dstEmpty {S : Option Ty → Prop} (hS : ∀ o, S o → o ≠ none) {t : St α} (h : WF S t) {d m : Nat}
    (hc : d + (m + 1) ≤ t.cur) :
    Runs (setEmpty none d (d + (m + 1) - 1) t) (fun r t1 => ∃ pre post x k, Emptied S t t1 d m r pre post x k) := by
  refine Runs.imp (setEmpty_in hS h none (p := d) (q := d + (m + 1) - 1) (by omega) (by omega)) ?_
  rintro r t1 ⟨he, hh⟩
  have e1 : d + (m + 1) - 1 - d + 1 = m + 1 := by omega
  rw [e1] at he
  have hlen := cells_length h
  have hlen1 : (cells t1.blocks).length = t.cur := by
    rw [he.cells]; simp [splice]; omega
  have hcur : t1.cur = t.cur := by
    rw [← cells_length he.wf, hlen1]
  obtain ⟨pre, x, k, post, eb, er, ed⟩ := empty_block (fun h => hS _ h rfl) he.wf (m := m) hh (by
    intro i h1 h2
    rw [he.cells]
    unfold tyAt splice
    rw [List.getElem?_append_right (by simp; omega), List.getElem?_append_left (by simp; omega)]
    simp [List.getElem?_replicate]) (by omega)
  have hok := ok_of_split he.wf eb
  have hcl : (cells pre ++ List.replicate x none).length = d := by simp [hok.2.1]; omega
  have hce := he.cells
  rw [eb] at hce
  have hk : cells (pre ++ ⟨total pre, x + (m + 1 + k), none⟩ :: post) =
      (cells pre ++ List.replicate x none) ++ (List.replicate (m + 1) none ++ (List.replicate k none ++ cells post)) := by
    simp [rep_app]
  rw [hk] at hce
  unfold splice at hce
  have h1 := List.append_inj hce (by rw [hcl]; simp; omega)
  have h2 := List.append_inj h1.2 (by simp)
  exact ⟨pre, post, x, k, ⟨eb, er, ed, he.wf, Led.of_eff he, h1.1, h2.2, hcur⟩⟩

end Mdds.Mtv
