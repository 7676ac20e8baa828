import Verif.Mtv.Eval
/-!
Effect of `set_impl` (single element), branch by branch.
-/
namespace Mdds.Mtv
open Mdds

set_option linter.unusedSimpArgs false
set_option linter.unusedVariables false

variable {α : Type} [DecidableEq α]

/-- Well-formed state on a given block list. -/
structure WF (S : Option Ty → Prop) (s : St α) : Prop where
  tile : Tile 0 s.blocks
  cur : s.cur = total s.blocks
  sep : Sep S s.blocks

/-- Split the hypotheses of a well-formed decomposed state. -/
macro "wf_split" h:ident : tactic => `(tactic|
  (obtain ⟨ht, hc, hs⟩ := $h
   simp at ht hc hs
   (try casesm* _ ∧ _)))

/-- Finish a branch after evaluation. -/
macro "fin_tac" : tactic => `(tactic|
  first
    | (refine ⟨?_, ?_⟩
       · eff_tac
       · first | (simp [holds_mk]; done) | (simp [holds_mk]; omega))
    | eff_tac)

/-- Evaluate the call with the given definitions, then close the effect goal. -/
macro "mrun" "[" xs:Lean.Parser.Tactic.simpLemma,* "]" : tactic => `(tactic|
  (simp [$xs,*, mev, Nat.add_assoc, *]
   first
     | fin_tac
     | (simp [$xs,*, mev, Nat.add_assoc, *]; fin_tac)
     | (simp [$xs,*, mev, Nat.add_assoc, *]; simp [$xs,*, mev, Nat.add_assoc, *]; fin_tac)))

/-- What may precede / follow a block, as seen from an element type. -/
theorem prev_cases (ty : Ty) (pre : List (Blk α)) :
    pre = [] ∨ (∃ q p n, pre = q ++ [⟨p, n, none⟩]) ∨ (∃ q p n i v, pre = q ++ [⟨p, n, some ⟨i, ty, v⟩⟩]) ∨
      (∃ q p n i t v, ty ≠ t ∧ t ≠ ty ∧ pre = q ++ [⟨p, n, some ⟨i, t, v⟩⟩]) := by
  rcases snoc_cases pre with h | ⟨q, ⟨p, n, _ | ⟨i, t, v⟩⟩, h⟩
  · exact .inl h
  · exact .inr (.inl ⟨q, p, n, h⟩)
  · by_cases ht : t = ty
    · subst ht; exact .inr (.inr (.inl ⟨q, p, n, i, v, h⟩))
    · exact .inr (.inr (.inr ⟨q, p, n, i, t, v, fun e => ht e.symm, ht, h⟩))
theorem next_cases (ty : Ty) (post : List (Blk α)) :
    post = [] ∨ (∃ q p n, post = ⟨p, n, none⟩ :: q) ∨ (∃ q p n i v, post = ⟨p, n, some ⟨i, ty, v⟩⟩ :: q) ∨
      (∃ q p n i t v, ty ≠ t ∧ t ≠ ty ∧ post = ⟨p, n, some ⟨i, t, v⟩⟩ :: q) := by
  rcases post with _ | ⟨⟨p, n, _ | ⟨i, t, v⟩⟩, q⟩
  · exact .inl rfl
  · exact .inr (.inl ⟨q, p, n, rfl⟩)
  · by_cases ht : t = ty
    · subst ht; exact .inr (.inr (.inl ⟨q, p, n, i, v, rfl⟩))
    · exact .inr (.inr (.inr ⟨q, p, n, i, t, v, fun e => ht e.symm, ht, rfl⟩))

/-- Case split on the block before / after / both. -/
macro "prevs" t:ident p:ident : tactic => `(tactic|
  rcases prev_cases $t $p with rfl | ⟨_, _, _, rfl⟩ | ⟨_, _, _, _, _, rfl⟩ | ⟨_, _, _, _, _, _, _, _, rfl⟩)
macro "nexts" t:ident p:ident : tactic => `(tactic|
  rcases next_cases $t $p with rfl | ⟨_, _, _, rfl⟩ | ⟨_, _, _, _, _, rfl⟩ | ⟨_, _, _, _, _, _, _, _, rfl⟩)
macro "nbrs" t:ident p:ident q:ident : tactic => `(tactic| (prevs $t $p <;> nexts $t $q))

/-- Run all remaining cases. -/
macro "runs" h:ident "[" xs:Lean.Parser.Tactic.simpLemma,* "]" : tactic => `(tactic|
  (all_goals subst_vars
   all_goals wf_split $h
   all_goals try contradiction
   all_goals subst_vars
   all_goals mrun [$xs,*]))

/-- The same without further definitions. -/
macro "go" h:ident : tactic => `(tactic| runs $h [total_nil])

theorem setCellToMiddle_none (S : Option Ty → Prop) (hS : ¬ S none) (pre post : List (Blk α))
    (p a k : Nat) (ha : 0 < a) (hk : 0 < k) (ty : Ty) (x : α) (c fr ev nx) (s : St α)
    (e : s = ⟨pre ++ ⟨p, a + 1 + k, none⟩ :: post, c, fr, ev, nx⟩) (h : WF S s) :
    Runs (setCellToMiddle pre.length a ty x s)
      (fun r s' => Eff S True True s s'
        (cells pre ++ (List.replicate a none ++ some (ty, x) :: List.replicate k none) ++ cells post) [(ty, x)] []
        ∧ Holds s' r (total pre + a)) := by
  subst e
  simp [setCellToMiddle, setNewBlockToMiddle, mev, Nat.add_assoc]
  wf_split h
  fin_tac

theorem setCellToMiddle_some (S : Option Ty → Prop) (hS : ¬ S none) (pre post : List (Blk α))
    (p i : Nat) (t : Ty) (va vb : List α) (y : α) (ha : va ≠ []) (hb : vb ≠ []) (ty : Ty) (x : α)
    (hty : t ≠ ty) (c fr ev nx) (s : St α)
    (e : s = ⟨pre ++ ⟨p, va.length + 1 + vb.length, some ⟨i, t, va ++ y :: vb⟩⟩ :: post, c, fr, ev, nx⟩)
    (h : WF S s) :
    Runs (setCellToMiddle pre.length va.length ty x s)
      (fun r s' => Eff S True True s s'
        (cells pre ++ (va.map (fun v => some (t, v)) ++ some (ty, x) :: vb.map (fun v => some (t, v)))
          ++ cells post) [(ty, x)] []
        ∧ Holds s' r (total pre + va.length)) := by
  subst e
  have ha' : 0 < va.length := List.length_pos_iff.2 ha
  have hb' : 0 < vb.length := List.length_pos_iff.2 hb
  have hty' : ty ≠ t := hty.symm
  by_cases hlt : vb.length < va.length
  · simp [setCellToMiddle, setNewBlockToMiddle, mev, Nat.add_assoc, hlt]
    wf_split h
    fin_tac
  · simp [setCellToMiddle, setNewBlockToMiddle, mev, Nat.add_assoc, hlt]
    wf_split h
    fin_tac


theorem setCellToTop_eff (S : Option Ty → Prop) (pre post : List (Blk α))
    (p i n : Nat) (t : Ty) (vb : List α) (y : α) (hb : vb ≠ []) (ty : Ty) (x : α)
    (hty : t ≠ ty) (c fr ev nx) (s : St α) (hn : n = vb.length + 1)
    (e : s = ⟨pre ++ ⟨p, n, some ⟨i, t, y :: vb⟩⟩ :: post, c, fr, ev, nx⟩)
    (h : WF S s) (hl : SL S pre (some ty)) :
    Runs (setCellToTop pre.length ty x s)
      (fun _ s' => Eff S True True s s'
        (cells pre ++ (some (ty, x) :: vb.map (fun v => some (t, v))) ++ cells post) [(ty, x)] []
        ∧ Holds s' pre.length (total pre)) := by
  subst e hn
  have hb' : 0 < vb.length := List.length_pos_iff.2 hb
  have hty' : ty ≠ t := hty.symm
  simp [setCellToTop, mev, Nat.add_assoc]
  wf_split h
  fin_tac

theorem setCellToBottom_eff (S : Option Ty → Prop) (pre post : List (Blk α))
    (p i n : Nat) (t : Ty) (va : List α) (y : α) (ha : va ≠ []) (ty : Ty) (x : α)
    (hty : t ≠ ty) (c fr ev nx) (s : St α) (hn : n = va.length + 1)
    (e : s = ⟨pre ++ ⟨p, n, some ⟨i, t, va ++ [y]⟩⟩ :: post, c, fr, ev, nx⟩)
    (h : WF S s) (hl : SR S (some ty) post) :
    Runs (setCellToBottom pre.length ty x s)
      (fun _ s' => Eff S True True s s'
        (cells pre ++ (va.map (fun v => some (t, v)) ++ [some (ty, x)]) ++ cells post) [(ty, x)] []
        ∧ Holds s' (pre.length + 1) (total pre + va.length) ∧ s'.blocks.length = pre.length + 2 + post.length) := by
  subst e hn
  have ha' : 0 < va.length := List.length_pos_iff.2 ha
  have hty' : ty ≠ t := hty.symm
  simp [setCellToBottom, mev, Nat.add_assoc]
  wf_split h
  first
    | refine ⟨?_, ?_, by omega⟩
    | refine ⟨?_, ?_⟩
  · eff_tac
  · simp [holds_mk]; omega

theorem setAtEndIntoNext_eff (S : Option Ty → Prop) (pre post : List (Blk α))
    (p i n np ni ns : Nat) (t : Ty) (va nv : List α) (y : α) (ha : va ≠ []) (ty : Ty) (x : α)
    (hty : t ≠ ty) (c fr ev nx) (s : St α) (hn : n = va.length + 1)
    (e : s = ⟨pre ++ ⟨p, n, some ⟨i, t, va ++ [y]⟩⟩ :: ⟨np, ns, some ⟨ni, ty, nv⟩⟩ :: post, c, fr, ev, nx⟩)
    (h : WF S s)  :
    Runs (setAtEndIntoNext pre.length ty x s)
      (fun r s' => Eff S True True s s'
        (cells pre ++ (va.map (fun v => some (t, v)) ++ [some (ty, x)]) ++
          (nv.map (fun v => some (ty, v)) ++ cells post)) [(ty, x)] []
        ∧ Holds s' r (total pre + va.length)) := by
  subst e hn
  have ha' : 0 < va.length := List.length_pos_iff.2 ha
  have hty' : ty ≠ t := hty.symm
  wf_split h
  have : 1 ≤ np := by omega
  simp [setAtEndIntoNext, mev, Nat.add_assoc, this]
  fin_tac


theorem setCellToSizeOne_eff (S : Option Ty → Prop) (hS : ∀ t, S t → t ≠ none) (pre post : List (Blk α))
    (p i : Nat) (t : Ty) (y : α) (ty : Ty) (x : α)
    (hty : t ≠ ty) (c fr ev nx) (s : St α)
    (e : s = ⟨pre ++ ⟨p, 1, some ⟨i, t, [y]⟩⟩ :: post, c, fr, ev, nx⟩)
    (h : WF S s) :
    Runs (setCellToSizeOne pre.length ty x s)
      (fun r s' => Eff S True True s s'
        (cells pre ++ [some (ty, x)] ++ cells post) [(ty, x)] []
        ∧ Holds s' r (total pre)) := by
  subst e
  have hty' : ty ≠ t := hty.symm
  have hS' : ¬ S none := fun h => hS _ h rfl
  rcases snoc_cases pre with rfl | ⟨pre, ⟨qp, qs, qd⟩, rfl⟩
  · rcases post with _ | ⟨⟨np, ns, nd⟩, post⟩
    · simp [setCellToSizeOne, mev, Nat.add_assoc]
      wf_split h
      fin_tac
    · rcases nd with _ | ⟨ni, nt, nv⟩
      · simp [setCellToSizeOne, mev, Nat.add_assoc]
        wf_split h
        fin_tac
      · by_cases hn : nt = ty
        · subst hn
          wf_split h
          have : 1 ≤ np := by omega
          simp [setCellToSizeOne, mev, Nat.add_assoc, this]
          fin_tac
        · have hn' : ty ≠ nt := fun e => hn e.symm
          simp [setCellToSizeOne, mev, Nat.add_assoc, hn, hn']
          wf_split h
          fin_tac
  · rcases post with _ | ⟨⟨np, ns, nd⟩, post⟩
    · rcases qd with _ | ⟨qi, qt, qv⟩
      · simp [setCellToSizeOne, mev, Nat.add_assoc]
        wf_split h
        fin_tac
      · by_cases hn : qt = ty
        · subst hn
          simp [setCellToSizeOne, mev, Nat.add_assoc]
          wf_split h
          fin_tac
        · have hn' : ty ≠ qt := fun e => hn e.symm
          simp [setCellToSizeOne, mev, Nat.add_assoc, hn, hn']
          wf_split h
          fin_tac
    · rcases qd with _ | ⟨qi, qt, qv⟩ <;> rcases nd with _ | ⟨ni, nt, nv⟩
      · simp [setCellToSizeOne, mev, Nat.add_assoc]
        wf_split h
        fin_tac
      · by_cases hn : nt = ty
        · subst hn
          wf_split h
          have : 1 ≤ np := by omega
          simp [setCellToSizeOne, mev, Nat.add_assoc, this]
          fin_tac
        · have hn' : ty ≠ nt := fun e => hn e.symm
          simp [setCellToSizeOne, mev, Nat.add_assoc, hn, hn']
          wf_split h
          fin_tac
      · by_cases hn : qt = ty
        · subst hn
          simp [setCellToSizeOne, mev, Nat.add_assoc]
          wf_split h
          fin_tac
        · have hn' : ty ≠ qt := fun e => hn e.symm
          simp [setCellToSizeOne, mev, Nat.add_assoc, hn, hn']
          wf_split h
          fin_tac
      · by_cases hn : qt = ty
        · subst hn
          by_cases hm : qt = nt
          · subst hm
            simp [setCellToSizeOne, mev, Nat.add_assoc]
            wf_split h
            fin_tac
          · simp [setCellToSizeOne, mev, Nat.add_assoc, hm]
            wf_split h
            fin_tac
        · have hn' : ty ≠ qt := fun e => hn e.symm
          by_cases hm : nt = ty
          · subst hm
            wf_split h
            have : 1 ≤ np := by omega
            simp [setCellToSizeOne, mev, Nat.add_assoc, this, hn, hn']
            fin_tac
          · have hm' : ty ≠ nt := fun e => hm e.symm
            by_cases hl : qt = nt <;>
            · simp [setCellToSizeOne, mev, Nat.add_assoc, hm, hm', hn, hn', hl]
              wf_split h
              fin_tac


/-- Shape of an offset inside a block. -/
theorem off_cases {off n : Nat} (h : off < n) :
    (off = 0 ∧ n = 1) ∨ (∃ k, off = 0 ∧ n = k + 2) ∨ (∃ a, off = a + 1 ∧ n = a + 2) ∨
      (∃ a k, off = a + 1 ∧ n = (a + 1) + 1 + (k + 1)) := by
  rcases off with _ | a
  · rcases n with _ | _ | k
    · omega
    · simp
    · right; left; exact ⟨k, by simp⟩
  · right; right
    by_cases hn : n = a + 2
    · left; exact ⟨a, rfl, hn⟩
    · right; exact ⟨a, n - a - 3, rfl, by omega⟩

macro "rep_tac" : tactic => `(tactic| simp [List.replicate_succ, List.replicate_add])

theorem setCellToEmptyBlock_eff (S : Option Ty → Prop) (hS : ∀ t, S t → t ≠ none) (pre post : List (Blk α))
    (p n off : Nat) (ty : Ty) (x : α) (hoff : off < n) (c fr ev nx) (s : St α)
    (e : s = ⟨pre ++ ⟨p, n, none⟩ :: post, c, fr, ev, nx⟩)
    (h : WF S s) :
    Runs (setCellToEmptyBlock pre.length off ty x s)
      (fun r s' => Eff S True True s s'
        (cells pre ++ (List.replicate off none ++ some (ty, x) :: List.replicate (n - 1 - off) none)
          ++ cells post) [(ty, x)] []
        ∧ Holds s' r (total pre + off)) := by
  have hS' : ¬ S none := fun h => hS _ h rfl
  rcases snoc_cases pre with rfl | ⟨pre, ⟨qp, qs, qd⟩, rfl⟩
  · rcases off_cases hoff with ⟨rfl, rfl⟩ | ⟨k, rfl, rfl⟩ | ⟨a, rfl, rfl⟩ | ⟨a, k, rfl, rfl⟩
    · subst e
      rcases post with _ | ⟨⟨np, ns, nd⟩, post⟩
      · wf_split h
        simp [setCellToEmptyBlock, setCellToEmptyBlockTop, mev, Nat.add_assoc, *]
        fin_tac
      · rcases nd with _ | ⟨ni, nt, nv⟩
        · wf_split h; simp_all
        · by_cases hn : nt = ty
          · subst hn
            wf_split h
            have : 1 ≤ np := by omega
            simp [setCellToEmptyBlock, setCellToEmptyBlockTop, mev, Nat.add_assoc, this]
            fin_tac
          · have hn' : ty ≠ nt := fun e => hn e.symm
            wf_split h
            simp [setCellToEmptyBlock, setCellToEmptyBlockTop, mev, Nat.add_assoc, hn']
            fin_tac
    · subst e
      rcases post with _ | ⟨⟨np, ns, nd⟩, post⟩
      · wf_split h
        have : c ≠ 1 := by omega
        simp [setCellToEmptyBlock, setCellToEmptyBlockTop, mev, Nat.add_assoc, this]
        fin_tac
      · rcases nd with _ | ⟨ni, nt, nv⟩
        · wf_split h; simp_all
        · wf_split h
          simp [setCellToEmptyBlock, setCellToEmptyBlockTop, mev, Nat.add_assoc]
          fin_tac
    · subst e
      rcases post with _ | ⟨⟨np, ns, nd⟩, post⟩
      · wf_split h
        have : c ≠ 1 := by omega
        simp [setCellToEmptyBlock, setCellToEmptyBlockTop, mev, Nat.add_assoc, this]
        fin_tac
      · rcases nd with _ | ⟨ni, nt, nv⟩
        · wf_split h; simp_all
        · by_cases hn : nt = ty
          · subst hn
            wf_split h
            have : 1 ≤ np := by omega
            simp [setCellToEmptyBlock, setCellToEmptyBlockTop, mev, Nat.add_assoc, this]
            fin_tac
          · have hn' : ty ≠ nt := fun e => hn e.symm
            wf_split h
            simp [setCellToEmptyBlock, setCellToEmptyBlockTop, mev, Nat.add_assoc, hn']
            fin_tac
    · have hm := setCellToMiddle_none S hS' [] post p (a + 1) (k + 1) (by omega) (by omega) ty x c fr ev nx s e h
      have e1 : a + 1 + 1 + (k + 1) - 1 - (a + 1) = k + 1 := by omega
      rw [e1]
      subst e
      rcases post with _ | ⟨⟨np, ns, nd⟩, post⟩
      · wf_split h
        have : c ≠ 1 := by omega
        simpa [setCellToEmptyBlock, setCellToEmptyBlockTop, getB_ap, nBlocks_ap, curSize_ap, Nat.add_assoc, this] using hm
      · simpa [setCellToEmptyBlock, setCellToEmptyBlockTop, getB_ap, nBlocks_ap, curSize_ap, Nat.add_assoc] using hm
  · rcases qd with _ | ⟨qi, qt, qv⟩
    · subst e; wf_split h; simp_all
    rcases off_cases hoff with ⟨rfl, rfl⟩ | ⟨k, rfl, rfl⟩ | ⟨a, rfl, rfl⟩ | ⟨a, k, rfl, rfl⟩
    · subst e
      by_cases hq : qt = ty
      · subst hq
        rcases post with _ | ⟨⟨np, ns, nd⟩, post⟩
        · wf_split h
          simp [setCellToEmptyBlock, setCellToEmptyBlockBelow, mev, Nat.add_assoc]
          fin_tac
        · rcases nd with _ | ⟨ni, nt, nv⟩
          · wf_split h; simp_all
          · by_cases hn : nt = qt
            · subst hn
              by_cases hlt : qs < ns <;>
              · wf_split h
                have : qv.length = qs := by assumption
                subst this
                simp [setCellToEmptyBlock, setCellToEmptyBlockBelow, mev, Nat.add_assoc, hlt]
                fin_tac
            · have hn' : qt ≠ nt := fun e => hn e.symm
              wf_split h
              simp [setCellToEmptyBlock, setCellToEmptyBlockBelow, mev, Nat.add_assoc, hn']
              fin_tac
      · have hq' : ty ≠ qt := fun e => hq e.symm
        rcases post with _ | ⟨⟨np, ns, nd⟩, post⟩
        · wf_split h
          simp [setCellToEmptyBlock, setCellToEmptyBlockBelow, mev, Nat.add_assoc, hq]
          fin_tac
        · rcases nd with _ | ⟨ni, nt, nv⟩
          · wf_split h; simp_all
          · by_cases hn : nt = ty
            · subst hn
              wf_split h
              have : 1 ≤ np := by omega
              simp [setCellToEmptyBlock, setCellToEmptyBlockBelow, mev, Nat.add_assoc, this, hq]
              fin_tac
            · have hn' : ty ≠ nt := fun e => hn e.symm
              wf_split h
              simp [setCellToEmptyBlock, setCellToEmptyBlockBelow, mev, Nat.add_assoc, hn', hq]
              fin_tac
    · subst e
      by_cases hq : qt = ty
      · subst hq
        wf_split h
        simp [setCellToEmptyBlock, setCellToEmptyBlockBelow, mev, Nat.add_assoc]
        fin_tac
      · have hq' : ty ≠ qt := fun e => hq e.symm
        wf_split h
        simp [setCellToEmptyBlock, setCellToEmptyBlockBelow, mev, Nat.add_assoc, hq]
        fin_tac
    · subst e
      rcases post with _ | ⟨⟨np, ns, nd⟩, post⟩
      · wf_split h
        simp [setCellToEmptyBlock, setCellToEmptyBlockBelow, mev, Nat.add_assoc]
        fin_tac
      · rcases nd with _ | ⟨ni, nt, nv⟩
        · wf_split h; simp_all
        · by_cases hn : nt = ty
          · subst hn
            wf_split h
            have : 1 ≤ np := by omega
            simp [setCellToEmptyBlock, setCellToEmptyBlockBelow, mev, Nat.add_assoc, this]
            fin_tac
          · have hn' : ty ≠ nt := fun e => hn e.symm
            wf_split h
            simp [setCellToEmptyBlock, setCellToEmptyBlockBelow, mev, Nat.add_assoc, hn']
            fin_tac
    · have hm := setCellToMiddle_none S hS' (pre ++ [⟨qp, qs, some ⟨qi, qt, qv⟩⟩]) post p (a + 1) (k + 1)
        (by omega) (by omega) ty x c fr ev nx s (by simpa using e) h
      have e1 : a + 1 + 1 + (k + 1) - 1 - (a + 1) = k + 1 := by omega
      rw [e1]
      subst e
      simpa [setCellToEmptyBlock, setCellToEmptyBlockBelow, getB_ap, nBlocks_ap, Nat.add_assoc] using hm

end Mdds.Mtv
