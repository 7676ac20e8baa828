import Verif.Mtv.SetImpl
import Verif.Mtv.Locate
import Verif.Mtv.RangeSingle
import Verif.Mtv.RangeMulti
import Verif.Mtv.EmptyLemmas
import Verif.Mtv.EraseMulti
import Verif.Mtv.InsertLemmas
import Verif.Mtv.AppendLemmas
/-!
The branch lemmas put together: effect of each internal operation on the sequence of
cells, for a block list split at the block that holds the position.
-/
namespace Mdds.Mtv
open Mdds

set_option linter.unusedSimpArgs false
set_option linter.unusedVariables false

set_option linter.unusedSectionVars false

variable {α : Type} [DecidableEq α]

/-- The cells `[row, row + k)` of `L` replaced by `X`. -/
def splice {τ : Type} (L : List τ) (row k : Nat) (X : List τ) : List τ :=
  L.take row ++ (X ++ L.drop (row + k))

theorem splice_mk {τ : Type} {L L' X : List τ} {row k : Nat} (P M R : List τ) (h : L = P ++ (M ++ R))
    (h1 : P.length = row) (h2 : M.length = k) (h3 : L' = P ++ (X ++ R)) : L' = splice L row k X := by
  subst h h1 h2 h3
  simp only [splice]
  rw [List.take_left, ← List.append_assoc P M R, List.drop_left' (by simp)]

theorem Eff.cast {S : Option Ty → Prop} {lp ep : Prop} {s s' : St α} {L L' ins outs}
    (h : Eff S lp ep s s' L ins outs) (e : L = L') : Eff S lp ep s s' L' ins outs := e ▸ h

/-- The element type of cell `i`; `none` for an empty cell and past the end. -/
def tyAt (L : List (Option (Ty × α))) (i : Nat) : Option Ty := (L[i]?.bind id).map Prod.fst

theorem tyAt_block {P R : List (Option (Ty × α))} {b : Blk α} (ok : b.ok) {i : Nat} (h1 : P.length ≤ i)
    (h2 : i < P.length + b.size) : tyAt (P ++ (b.cells ++ R)) i = b.ty := by
  have hl : b.cells.length = b.size := cells_length_of_ok ok
  unfold tyAt
  rw [List.getElem?_append_right h1, List.getElem?_append_left (by omega)]
  rcases b with ⟨p, n, _ | ⟨d, t, v⟩⟩
  · simp at hl h2 ⊢
    rw [List.getElem?_replicate]
    split <;> simp
  · simp at hl h2 ⊢
    have : i - P.length < v.length := by have := ok.2; simp at this; omega
    rw [List.getElem?_eq_getElem this]; simp

/-- Turn a branch result into the spliced form. -/
macro "fit" h:term:max P:term:max M:term:max R:term:max : tactic => `(tactic|
  (refine Runs.imp $h (fun r s' hh => ⟨(hh.1.mono (by first | exact id | exact fun _ => trivial | (simp; done) | assumption)
     (by first | exact id | exact fun _ => trivial | (simp; done) | assumption)).cast (splice_mk $P $M $R ?_ ?_ ?_ ?_), ?_⟩)
   · first
       | (simp [List.replicate_add, -List.replicate_append_replicate]; done)
       | (simp [List.replicate_add, List.replicate_succ, -List.replicate_append_replicate]; done)
   · simp [*]
   · simp [*]
   · first | (simp; done) | (simp [List.replicate_add, -List.replicate_append_replicate]; done)
   · simpa [Nat.add_assoc] using hh.2))

theorem ok_of_split {S : Option Ty → Prop} {s : St α} {pre post : List (Blk α)} {b : Blk α} (h : WF S s)
    (e : s.blocks = pre ++ b :: post) : b.ok ∧ (cells pre).length = total pre ∧ b.pos = total pre := by
  have ht := h.tile
  rw [e] at ht
  simp only [tile_append, tile_cons, Nat.zero_add] at ht
  exact ⟨ht.2.2.1, tile_cells_length ht.1, ht.2.1⟩

theorem setImpl_ok {S : Option Ty → Prop} (hS : ∀ t, S t → t ≠ none) {s : St α} (h : WF S s)
    {pre post : List (Blk α)} {b : Blk α} (e : s.blocks = pre ++ b :: post) {a : Nat} (ha : a < b.size)
    (ty : Ty) (x : α) :
    Runs (setImpl (total pre + a) pre.length ty x s)
      (fun r s' => Eff S True True s s' (splice (cells s.blocks) (total pre + a) 1 [some (ty, x)]) [(ty, x)] []
        ∧ Holds s' r (total pre + a)) := by
  obtain ⟨ok, hpl, hp⟩ := ok_of_split h e
  rcases s with ⟨bs, c, fr, ev, nx⟩
  simp only at e
  subst e
  rcases head0_cases b a ok ha with ⟨p, m, rfl⟩ | ⟨p, i, t, va, y, vm, rfl, rfl⟩
  · have h1 := setCellToEmptyBlock_eff S hS pre post p (a + (m + 1)) a ty x (by omega) c fr ev nx _ rfl h
    have h2 : setImpl (total pre + a) pre.length ty x ⟨pre ++ ⟨p, a + (m + 1), none⟩ :: post, c, fr, ev, nx⟩ =
        setCellToEmptyBlock pre.length a ty x ⟨pre ++ ⟨p, a + (m + 1), none⟩ :: post, c, fr, ev, nx⟩ := by
      simp only at hp
      subst hp
      simp [setImpl, getB_ap]
    rw [h2]
    have e1 : a + (m + 1) - 1 - a = m := by omega
    rw [e1] at h1
    fit h1 (cells pre ++ List.replicate a none) [none] (List.replicate m none ++ cells post)
  · have h1 := setImpl_some S hS pre post p _ i t va vm y ty x c fr ev nx _ rfl rfl h
    fit h1 (cells pre ++ va.map (fun v => some (t, v))) [some (t, y)] (vm.map (fun v => some (t, v)) ++ cells post)

theorem insertCellsImpl_ok {S : Option Ty → Prop} (hS : ∀ t, S t → t ≠ none) {s : St α} (h : WF S s)
    {pre post : List (Blk α)} {b : Blk α} (e : s.blocks = pre ++ b :: post) {a : Nat} (ha : a < b.size)
    (ty : Ty) (vs : List α) (hvs : vs ≠ []) :
    Runs (insertCellsImpl (total pre + a) pre.length ty vs s)
      (fun r s' => Eff S True
          (b.ty = none ∨ b.ty = some ty ∨ 0 < a ∨ ∃ b ∈ pre.getLast?, b.ty = some ty) s s'
          (splice (cells s.blocks) (total pre + a) 0 (vs.map (fun v => some (ty, v))))
          (vs.map (fun v => (ty, v))) []
        ∧ Holds s' r (total pre + a)) := by
  obtain ⟨ok, hpl, hp⟩ := ok_of_split h e
  rcases s with ⟨bs, c, fr, ev, nx⟩
  simp only at e
  subst e
  rcases head0_cases b a ok ha with ⟨p, m, rfl⟩ | ⟨p, i, t, va, y, vm, rfl, rfl⟩
  · rcases Nat.eq_zero_or_pos a with rfl | ha
    · have h1 := insert_none_top S hS pre post p (0 + (m + 1)) ty vs hvs c fr ev nx _ rfl h
      fit h1 (cells pre) [] (List.replicate (0 + (m + 1)) none ++ cells post)
    · have h1 := insert_none_mid S hS pre post p a (m + 1) ha (by omega) ty vs hvs c fr ev nx _ rfl h
      fit h1 (cells pre ++ List.replicate a none) [] (List.replicate (m + 1) none ++ cells post)
  · by_cases hty : t = ty
    · subst hty
      have h1 := insert_same S pre post p i t va (y :: vm) vs hvs c fr ev nx _ rfl h
      fit h1 (cells pre ++ va.map (fun v => some (t, v))) [] ((y :: vm).map (fun v => some (t, v)) ++ cells post)
    · rcases va with _ | ⟨v0, va⟩
      · simp only [List.nil_append, List.length_nil, Nat.zero_add, Nat.add_zero] at *
        have h1 := insert_other_top S pre post p i t ty hty (y :: vm) vs hvs c fr ev nx _ rfl h
        have hx : (Blk.mk p (vm.length + 1) (some ⟨i, t, y :: vm⟩)).ty = none ∨
          (Blk.mk p (vm.length + 1) (some ⟨i, t, y :: vm⟩)).ty = some ty ∨
          0 < 0 ∨ (∃ b ∈ pre.getLast?, b.ty = some ty) → (∃ b ∈ pre.getLast?, b.ty = some ty) := by
          simp [hty]
        fit h1 (cells pre) [] ((y :: vm).map (fun v => some (t, v)) ++ cells post)
      · have h1 := insert_other_mid S pre post p i t ty hty (v0 :: va) (y :: vm) (by simp) (by simp) vs hvs c fr ev nx _ rfl h
        fit h1 (cells pre ++ (v0 :: va).map (fun v => some (t, v))) [] ((y :: vm).map (fun v => some (t, v)) ++ cells post)

theorem insertEmptyImpl_ok {S : Option Ty → Prop} (hS : ∀ t, S t → t ≠ none) {s : St α} (h : WF S s)
    {pre post : List (Blk α)} {b : Blk α} (e : s.blocks = pre ++ b :: post) {a : Nat} (ha : a < b.size)
    (l : Nat) (hl : 0 < l) :
    Runs (insertEmptyImpl (total pre + a) pre.length l s)
      (fun r s' => Eff S True True s s' (splice (cells s.blocks) (total pre + a) 0 (List.replicate l none)) [] []
        ∧ Holds s' r (total pre + a)) := by
  obtain ⟨ok, hpl, hp⟩ := ok_of_split h e
  rcases s with ⟨bs, c, fr, ev, nx⟩
  simp only at e
  subst e
  rcases head0_cases b a ok ha with ⟨p, m, rfl⟩ | ⟨p, i, t, va, y, vm, rfl, rfl⟩
  · have h1 := insertEmpty_none S pre post p a (m + 1) l (by omega) c fr ev nx _ rfl h
    fit h1 (cells pre ++ List.replicate a none) [] (List.replicate (m + 1) none ++ cells post)
  · rcases va with _ | ⟨v0, va⟩
    · simp only [List.nil_append, List.length_nil, Nat.zero_add, Nat.add_zero] at *
      have h1 := insertEmpty_top S hS pre post p i t (y :: vm) l hl c fr ev nx _ rfl h
      fit h1 (cells pre) [] ((y :: vm).map (fun v => some (t, v)) ++ cells post)
    · have h1 := insertEmpty_mid S hS pre post p i t (v0 :: va) (y :: vm) (by simp) (by simp) l hl c fr ev nx _ rfl h
      fit h1 (cells pre ++ (v0 :: va).map (fun v => some (t, v))) [] ((y :: vm).map (fun v => some (t, v)) ++ cells post)

/-! ### Ranges -/

theorem split_end {pre post : List (Blk α)} {b : Blk α} {q : Nat} (h : q < total (pre ++ b :: post))
    (h1 : total pre ≤ q) :
    (∃ d, q = total pre + d ∧ d < b.size) ∨
      ∃ mid b2 post' d, post = mid ++ b2 :: post' ∧ q = total pre + (b.size + (total mid + d)) ∧ d < b2.size := by
  by_cases hb : q < total pre + b.size
  · exact .inl ⟨q - total pre, by omega, by omega⟩
  · right
    have hlt : q - (total pre + b.size) < total post := by simp at h; omega
    obtain ⟨mid, b2, post', e, h2, h3⟩ := locate hlt
    exact ⟨mid, b2, post', q - (total pre + b.size) - total mid, e, by omega, by omega⟩

/-- The range overwritten by `set` starts in a block of the same type and ends inside
a block of a managed type. -/
def LeakRange (L : List (Option (Ty × α))) (row len : Nat) (ty : Ty) : Prop :=
  tyAt L row = some ty ∧ ∃ t, t.managed = true ∧ t ≠ ty ∧ tyAt L (row + len - 1) = some t ∧ tyAt L (row + len) = some t

/-- The range overwritten by `set` begins and ends in runs of another type. -/
def InnerRange (L : List (Option (Ty × α))) (row len : Nat) (ty : Ty) : Prop :=
  ∃ t, t ≠ ty ∧ tyAt L row = some t ∧ tyAt L (row + len) = some t

/-- The cells before the range's end are of another type, those at its start and right
after it are of the new type. -/
def GapRange (L : List (Option (Ty × α))) (row len : Nat) (ty : Ty) : Prop :=
  tyAt L row = some ty ∧ tyAt L (row + len) = some ty ∧ tyAt L (row + len - 1) ≠ some ty

theorem setCellsSingle_ok {S : Option Ty → Prop} (hS : ∀ t, S t → t ≠ none) {s : St α} (h : WF S s)
    {pre post : List (Blk α)} {b : Blk α} (e : s.blocks = pre ++ b :: post) {a : Nat}
    (ty : Ty) (v : α) (vs : List α) (ha : a + vs.length < b.size) :
    Runs (setCellsSingle (total pre + a) (total pre + a + vs.length) pre.length ty (v :: vs) s)
      (fun r s' => Eff S True (¬ InnerRange (cells s.blocks) (total pre + a) (vs.length + 1) ty) s s'
          (splice (cells s.blocks) (total pre + a) (vs.length + 1) ((v :: vs).map (fun v => some (ty, v))))
          ((v :: vs).map (fun v => (ty, v))) []
        ∧ Holds s' r (total pre + a)) := by
  obtain ⟨ok, hpl, hp⟩ := ok_of_split h e
  have hb := e
  rcases s with ⟨bs, c, fr, ev, nx⟩
  simp only at e
  subst e
  rcases cut_cases b a vs.length ok (by omega) with ⟨p, k, rfl⟩ | ⟨p, i, t, va, y, vm, vb, rfl, hm, rfl⟩
  · rcases Nat.eq_zero_or_pos a with rfl | ha'
    · rcases Nat.eq_zero_or_pos k with rfl | hk
      · simp only [Nat.zero_add, Nat.add_zero] at *
        have h1 := single_none_all S hS pre post p ty v vs c fr ev nx _ rfl h
        fit h1 (cells pre) (List.replicate (vs.length + 1) none) (cells post)
      · simp only [Nat.zero_add, Nat.add_zero] at *
        have h1 := single_none_top S hS pre post p k hk ty v vs c fr ev nx _ rfl h
        fit h1 (cells pre) (List.replicate (vs.length + 1) none) (List.replicate k none ++ cells post)
    · rcases Nat.eq_zero_or_pos k with rfl | hk
      · simp only [Nat.zero_add, Nat.add_zero] at *
        have h1 := single_none_bottom S hS pre post p a ha' ty v vs c fr ev nx _ rfl h
        fit h1 (cells pre ++ List.replicate a none) (List.replicate (vs.length + 1) none) (cells post)
      · have h1 := single_none_mid S hS pre post p a k ha' hk ty v vs c fr ev nx _ rfl h
        fit h1 (cells pre ++ List.replicate a none) (List.replicate (vs.length + 1) none) (List.replicate k none ++ cells post)
  · rw [hm]
    by_cases hty : t = ty
    · subst hty
      have h1 := single_same S hS pre post p i _ y va vm vb t v vs c fr ev nx _ hm rfl rfl h
      fit h1 (cells pre ++ va.map (fun v => some (t, v))) ((y :: vm).map (fun v => some (t, v))) (vb.map (fun v => some (t, v)) ++ cells post)
    · rcases va with _ | ⟨v0, va⟩
      · simp only [List.nil_append, List.length_nil, Nat.zero_add, Nat.add_zero] at *
        rcases vb with _ | ⟨w, vb⟩
        · simp only [List.append_nil, List.length_nil, Nat.zero_add, Nat.add_zero] at *
          have h1 := single_some_all S hS pre post p i _ t y vm ty v vs c fr ev nx _ hty hm rfl rfl h
          fit h1 (cells pre) ((y :: vm).map (fun v => some (t, v))) (cells post)
        · have h1 := single_some_top S hS pre post p i _ t y vm (w :: vb) ty v vs c fr ev nx _ hty hm (by simp) rfl rfl h
          have hx : ¬ InnerRange (cells (pre ++ ⟨p, vm.length + 1 + (w :: vb).length, some ⟨i, t, y :: (vm ++ w :: vb)⟩⟩ :: post))
              (total pre) (vm.length + 1) ty → False := by
            intro hn
            apply hn
            refine ⟨t, hty, ?_, ?_⟩
            · simp only [cells_append, cells_cons]
              rw [tyAt_block ok (by omega) (by simp; omega)]; rfl
            · simp only [cells_append, cells_cons]
              rw [tyAt_block ok (by omega) (by simp; omega)]; rfl
          fit h1 (cells pre) ((y :: vm).map (fun v => some (t, v))) ((w :: vb).map (fun v => some (t, v)) ++ cells post)
      · rcases vb with _ | ⟨w, vb⟩
        · simp only [List.append_nil, List.length_nil, Nat.zero_add, Nat.add_zero] at *
          have h1 := single_some_bottom S hS pre post p i _ t y (v0 :: va) vm ty v vs c fr ev nx _ hty hm (by simp) rfl rfl h
          fit h1 (cells pre ++ (v0 :: va).map (fun v => some (t, v))) ((y :: vm).map (fun v => some (t, v))) (cells post)
        · have h1 := single_some_mid S hS pre post p i _ t y (v0 :: va) vm (w :: vb) ty v vs c fr ev nx _ hty hm (by simp) (by simp) rfl rfl h
          fit h1 (cells pre ++ (v0 :: va).map (fun v => some (t, v))) ((y :: vm).map (fun v => some (t, v))) ((w :: vb).map (fun v => some (t, v)) ++ cells post)

theorem SR_retype {S : Option Ty → Prop} {t u : Option Ty} {post : List (Blk α)} (h : SR S t post)
    (hu : ∀ x q, post = x :: q → u = x.ty → S u) : SR S u post := by
  rcases post with _ | ⟨x, q⟩
  · simp
  · simp at h ⊢
    exact ⟨hu x q rfl, h.2⟩

theorem setCellsMulti_ok {S : Option Ty → Prop} (hS : ∀ t, S t → t ≠ none) {s : St α} (h : WF S s)
    {pre mid post : List (Blk α)} {b1 b2 : Blk α} (e : s.blocks = pre ++ b1 :: (mid ++ b2 :: post)) {a d : Nat}
    (ty : Ty) (vs : List α) (ha : a < b1.size) (hd : d < b2.size)
    (hv : a + vs.length = b1.size + (total mid + (d + 1)))
    (h7 : S (some ty) ∨ ¬ GapRange (cells s.blocks) (total pre + a) vs.length ty) :
    Runs (setCellsMulti (total pre + a) (total pre + (b1.size + (total mid + d))) pre.length
        (pre.length + (mid.length + 1)) ty vs s)
      (fun r s' => Eff S (¬ LeakRange (cells s.blocks) (total pre + a) vs.length ty) True s s'
          (splice (cells s.blocks) (total pre + a) vs.length (vs.map (fun v => some (ty, v))))
          (vs.map (fun v => (ty, v))) []
        ∧ Holds s' r (total pre + a)) := by
  obtain ⟨ok1, hpl, hp⟩ := ok_of_split h e
  obtain ⟨ok2, hpl2, hp2⟩ := ok_of_split (pre := pre ++ b1 :: mid) (b := b2) (post := post) h (by rw [e]; simp)
  have hml : (cells mid).length = total mid := by
    have hc1 := cells_length_of_ok ok1
    simp [hpl, hc1] at hpl2; omega
  have hc1 := cells_length_of_ok ok1
  have hc2 := cells_length_of_ok ok2
  rcases s with ⟨bs, c, fr, ev, nx⟩
  simp only at e
  subst e
  have hcells : cells (pre ++ b1 :: (mid ++ b2 :: post)) =
      cells pre ++ (b1.cells ++ (cells mid ++ (b2.cells ++ cells post))) := by simp
  have hcells2 : cells (pre ++ b1 :: (mid ++ b2 :: post)) =
      (cells pre ++ (b1.cells ++ cells mid)) ++ (b2.cells ++ cells post) := by simp
  have hta : tyAt (cells (pre ++ b1 :: (mid ++ b2 :: post))) (total pre + a) = b1.ty := by
    rw [hcells, tyAt_block ok1 (by omega) (by omega)]
  have htd : tyAt (cells (pre ++ b1 :: (mid ++ b2 :: post))) (total pre + a + vs.length - 1) = b2.ty := by
    rw [hcells2, tyAt_block ok2 (by simp; omega) (by simp; omega)]
  have key : cells (pre ++ b1 :: (mid ++ b2 :: post)) = (cells pre ++ b1.cells.take a) ++
      ((b1.cells.drop a ++ (cells mid ++ b2.cells.take (d + 1))) ++ (b2.cells.drop (d + 1) ++ cells post)) := by
    rw [hcells]
    simp only [List.append_assoc]
    congr 1
    rw [← List.append_assoc (b1.cells.take a), List.take_append_drop]
    congr 2
    rw [← List.append_assoc (b2.cells.take (d + 1)), List.take_append_drop]
  have k1 : (cells pre ++ b1.cells.take a).length = total pre + a := by simp; omega
  have k2 : (b1.cells.drop a ++ (cells mid ++ b2.cells.take (d + 1))).length = vs.length := by simp; omega
  by_cases hty : b1.ty = some ty
  · rcases head0_cases b1 a ok1 ha with ⟨p, m, rfl⟩ | ⟨p, i, t, va, y, vm, rfl, rfl⟩
    · simp at hty
    · simp at hty
      subst hty
      have e1 : total pre + (va.length + (vm.length + 1) + (total mid + d))
        = total pre + (va.length + (vm.length + 1 + (total mid + d))) := by omega
      simp only at hv
      by_cases hdd : b2.size = d + 1
      · have hsr : SR S (some t) post := by
          have hs := h.sep
          simp at hs
          refine SR_retype hs.2.2 ?_
          rintro x q rfl hx
          rcases h7 with h7 | h7
          · exact h7
          · have ht3 : tyAt (cells (pre ++ ⟨p, va.length + (vm.length + 1), some ⟨i, t, va ++ y :: vm⟩⟩ :: (mid ++ b2 :: x :: q)))
                (total pre + va.length + vs.length) = x.ty := by
              have ht := h.tile
              simp at ht
              rw [show cells (pre ++ ⟨p, va.length + (vm.length + 1), some ⟨i, t, va ++ y :: vm⟩⟩ :: (mid ++ b2 :: x :: q)) =
                (cells pre ++ ((Blk.mk p (va.length + (vm.length + 1)) (some ⟨i, t, va ++ y :: vm⟩)).cells ++ (cells mid ++ b2.cells))) ++ (x.cells ++ cells q) by simp]
              have hxs : 0 < x.size := by
                have : x.ok := by tauto
                exact this.1
              rw [tyAt_block (by tauto) (by simp; omega) (by simp; omega)]
            by_cases hb2 : b2.ty = some t
            · have := hs.2.2
              simp at this
              rw [hb2] at this
              exact this.1 (hx)
            · exact absurd ⟨hta, by rw [ht3, ← hx], by rw [htd]; exact hb2⟩ h7
        have h1 := multi_eq_all S hS pre mid post b2 p i _ va vm y d hdd t vs c fr ev nx _ hsr rfl (by omega) rfl h
        rw [← e1] at h1
        refine Runs.imp h1 (fun r s' hh => ⟨(hh.1.mono (fun _ => trivial) (fun _ => trivial)).cast (splice_mk _ _ _ key k1 k2 ?_), hh.2⟩)
        rw [List.drop_of_length_le (l := b2.cells) (by omega)]
        simp
      · have h1 := multi_eq_part S hS pre mid post b2 p i _ va vm y d (by omega) t vs c fr ev nx _ ok2 rfl (by omega) rfl h
        rw [← e1] at h1
        refine Runs.imp h1 (fun r s' hh => ⟨(hh.1.mono ?_ (fun _ => trivial)).cast (splice_mk _ _ _ key k1 k2 ?_), hh.2⟩)
        · intro hl u hu hut
          by_contra hmg
          apply hl
          refine ⟨hta, u, by simpa using hmg, hut, by rw [htd]; exact hu, ?_⟩
          rw [hcells2, tyAt_block ok2 (by simp; omega) (by simp; omega)]; exact hu
        · simp
  · rcases Nat.eq_zero_or_pos a with rfl | ha'
    · by_cases hdd : b2.size = d + 1
      · have h1 := multi_ne_all_all S hS pre mid post b1 b2 d hdd ty vs c fr ev nx _ hty (by omega) rfl h
        refine Runs.imp h1 (fun r s' hh => ⟨(hh.1.mono (fun _ => trivial) (fun _ => trivial)).cast (splice_mk _ _ _ key k1 k2 ?_), hh.2⟩)
        rw [List.drop_of_length_le (l := b2.cells) (by omega)]
        simp
      · have h1 := multi_ne_all_part S hS pre mid post b1 b2 d (by omega) ty vs c fr ev nx _ hty (by omega) ok2 rfl h
        refine Runs.imp h1 (fun r s' hh => ⟨(hh.1.mono (fun _ => trivial) (fun _ => trivial)).cast (splice_mk _ _ _ key k1 k2 ?_), hh.2⟩)
        simp
    · by_cases hdd : b2.size = d + 1
      · have h1 := multi_ne_part_all S hS pre mid post b1 b2 a d hdd ty vs c fr ev nx _ hty ha' ha ok1 (by omega) rfl h
        refine Runs.imp h1 (fun r s' hh => ⟨(hh.1.mono (fun _ => trivial) (fun _ => trivial)).cast (splice_mk _ _ _ key k1 k2 ?_), hh.2⟩)
        rw [List.drop_of_length_le (l := b2.cells) (by omega)]
        simp
      · have h1 := multi_ne_part_part S hS pre mid post b1 b2 a d (by omega) ty vs c fr ev nx _ hty ha' ha ok1 ok2 (by omega) rfl h
        refine Runs.imp h1 (fun r s' hh => ⟨(hh.1.mono (fun _ => trivial) (fun _ => trivial)).cast (splice_mk _ _ _ key k1 k2 ?_), hh.2⟩)
        simp

/-! ### set_empty -/

/-- The values stored in the cells `[row, row + len)`. -/
def valsIn (L : List (Option (Ty × α))) (row len : Nat) : List (Ty × α) :=
  ((L.drop row).take len).filterMap id

theorem valsIn_mk {L P M R : List (Option (Ty × α))} {row k : Nat} (h : L = P ++ (M ++ R))
    (h1 : P.length = row) (h2 : M.length = k) : valsIn L row k = M.filterMap id := by
  subst h h1 h2
  simp [valsIn]

@[simp] theorem fm_map (t : Ty) (l : List α) :
    (l.map (fun v => some (t, v))).filterMap id = l.map (fun v => (t, v)) := by
  induction l with
  | nil => rfl
  | cons a l ih => simp only [List.map_cons]; exact (List.filterMap_cons_some (f := id) (a := some (t, a)) rfl).trans (by rw [ih])
@[simp] theorem fm_rep (n : Nat) : (List.replicate n (none : Option (Ty × α))).filterMap id = [] := by
  induction n with
  | zero => rfl
  | succ n ih => simp only [List.replicate_succ]; rw [List.filterMap_cons_none rfl, ih]
@[simp] theorem fm_bcells (b : Blk α) : b.cells.filterMap id = b.typed := by
  rcases b with ⟨p, n, _ | ⟨i, t, v⟩⟩
  · exact fm_rep n
  · exact fm_map t v
@[simp] theorem fm_cells (bs : List (Blk α)) : (cells bs).filterMap id = typed bs := by
  induction bs with
  | nil => rfl
  | cons b l ih => simp only [cells_cons, List.filterMap_append, ih, fm_bcells, typed_cons]

theorem eff_castO {S : Option Ty → Prop} {lp ep : Prop} {s s' : St α} {L' X ins outs} {row k : Nat} {ow : Bool}
    (h : Eff S lp ep s s' L' ins outs) (P M R : List (Option (Ty × α))) (hL : cells s.blocks = P ++ (M ++ R))
    (h1 : P.length = row) (h2 : M.length = k) (h3 : L' = P ++ (X ++ R))
    (h4 : outs = if ow then [] else M.filterMap id) :
    Eff S lp ep s s' (splice (cells s.blocks) row k X) ins
      (if ow then [] else valsIn (cells s.blocks) row k) := by
  rw [valsIn_mk hL h1 h2, ← splice_mk P M R hL h1 h2 h3, ← h4]
  exact h

/-- As `fit`, for operations that may hand values out. -/
macro "fitO" h:term:max P:term:max M:term:max R:term:max : tactic => `(tactic|
  (refine Runs.imp $h (fun r s' hh => ⟨eff_castO hh.1 $P $M $R ?_ ?_ ?_ ?_ ?_, ?_⟩)
   · first
       | (simp [List.replicate_add, -List.replicate_append_replicate]; done)
       | (simp [List.replicate_add, List.replicate_succ, -List.replicate_append_replicate]; done)
   · simp [*]
   · first | (simp [*]; done) | (simp [*]; omega)
   · first | (simp [*]; done) | (simp [List.replicate_add, *, -List.replicate_append_replicate]; done)
   · simp only [List.filterMap_append, fm_map, fm_rep, fm_bcells, fm_cells, List.nil_append, List.append_nil, List.append_assoc, ite_self]
   · simpa [Nat.add_assoc] using hh.2))

theorem setEmptySingle_ok {S : Option Ty → Prop} (hS : ∀ t, S t → t ≠ none) {s : St α} (h : WF S s)
    {pre post : List (Blk α)} {b : Blk α} (e : s.blocks = pre ++ b :: post) {a m : Nat}
    (ha : a + m < b.size) (ow : Bool) :
    Runs (setEmptySingle (total pre + a) (total pre + a + m) pre.length ow s)
      (fun r s' => Eff S True True s s'
          (splice (cells s.blocks) (total pre + a) (m + 1) (List.replicate (m + 1) none)) []
          (if ow then [] else valsIn (cells s.blocks) (total pre + a) (m + 1))
        ∧ Holds s' r (total pre + a)) := by
  obtain ⟨ok, hpl, hp⟩ := ok_of_split h e
  rcases s with ⟨bs, c, fr, ev, nx⟩
  simp only at e
  subst e
  rcases cut_cases b a m ok (by omega) with ⟨p, k, rfl⟩ | ⟨p, i, t, va, y, vm, vb, rfl, rfl, rfl⟩
  · have h1 := emptySingle_none S pre post (total pre + a) (total pre + a + m) p _ ow c fr ev nx _
      (by simp at hp; omega) (by simp at hp; omega) rfl h
    fitO h1 (cells pre ++ List.replicate a none) (List.replicate (m + 1) none) (List.replicate k none ++ cells post)
  · rcases va with _ | ⟨v0, va⟩
    · simp only [List.nil_append, List.length_nil, Nat.zero_add, Nat.add_zero] at *
      rcases vb with _ | ⟨w, vb⟩
      · simp only [List.append_nil, List.length_nil, Nat.zero_add, Nat.add_zero] at *
        have h1 := emptySingle_all S hS pre post p i _ t y vm ow c fr ev nx _ rfl rfl h
        fitO h1 (cells pre) ((y :: vm).map (fun v => some (t, v))) (cells post)
      · have h1 := emptySingle_top S hS pre post p i _ t y vm (w :: vb) (by simp) ow c fr ev nx _ rfl rfl h
        fitO h1 (cells pre) ((y :: vm).map (fun v => some (t, v))) ((w :: vb).map (fun v => some (t, v)) ++ cells post)
    · rcases vb with _ | ⟨w, vb⟩
      · simp only [List.append_nil, List.length_nil, Nat.zero_add, Nat.add_zero] at *
        have h1 := emptySingle_bottom S hS pre post p i _ t y (v0 :: va) vm (by simp) ow c fr ev nx _ rfl rfl h
        fitO h1 (cells pre ++ (v0 :: va).map (fun v => some (t, v))) ((y :: vm).map (fun v => some (t, v))) (cells post)
      · have h1 := emptySingle_mid S hS pre post p i _ t y (v0 :: va) vm (w :: vb) (by simp) (by simp) ow c fr ev nx _ rfl rfl h
        fitO h1 (cells pre ++ (v0 :: va).map (fun v => some (t, v))) ((y :: vm).map (fun v => some (t, v))) ((w :: vb).map (fun v => some (t, v)) ++ cells post)

theorem setEmptyMulti_ok {S : Option Ty → Prop} (hS : ∀ t, S t → t ≠ none) {s : St α} (h : WF S s)
    {pre mid post : List (Blk α)} {b1 b2 : Blk α} (e : s.blocks = pre ++ b1 :: (mid ++ b2 :: post)) {a d k : Nat}
    (ha : a < b1.size) (hd : d < b2.size) (ow : Bool) (hk : a + k = b1.size + (total mid + (d + 1))) :
    Runs (setEmptyMulti (total pre + a) (total pre + (b1.size + (total mid + d))) pre.length
        (pre.length + (mid.length + 1)) ow s)
      (fun r s' => Eff S True True s s'
          (splice (cells s.blocks) (total pre + a) k (List.replicate k none)) []
          (if ow then [] else valsIn (cells s.blocks) (total pre + a) k)
        ∧ Holds s' r (total pre + a)) := by
  obtain ⟨ok1, hpl, hp⟩ := ok_of_split h e
  obtain ⟨ok2, hpl2, hp2⟩ := ok_of_split (pre := pre ++ b1 :: mid) (b := b2) (post := post) h (by rw [e]; simp)
  have hml : (cells mid).length = total mid := by
    have hc1 := cells_length_of_ok ok1
    simp [hpl, hc1] at hpl2; omega
  clear hpl2 hp hp2
  rcases s with ⟨bs, c, fr, ev, nx⟩
  simp only at e
  subst e
  rcases head0_cases b1 a ok1 ha with ⟨p1, m, rfl⟩ | ⟨p1, i1, t1, va, y1, vm, rfl, rfl⟩
  · rcases tail0_cases b2 d ok2 hd with ⟨p2, k2, rfl⟩ | ⟨p2, i2, t2, y2, vd, vb, rfl, rfl⟩
    · obtain rfl : k = m + 1 + (total mid + (d + 1)) := by (try simp at hk); omega
      have e1 : total pre + (a + (m + 1) + (total mid + d)) = total pre + (a + (m + 1 + (total mid + d))) := by omega
      have h1 := emptyMulti_NN S hS pre mid post p1 a m p2 d k2 ow c fr ev nx _ rfl h
      try simp only [e1]
      fitO h1 (cells pre ++ List.replicate a none) (List.replicate (m + 1) none ++ (cells mid ++ List.replicate (d + 1) none)) (List.replicate k2 none ++ cells post)
    · rcases vb with _ | ⟨w, vb⟩
      · simp only [List.append_nil, List.length_nil, Nat.zero_add, Nat.add_zero] at *
        obtain rfl : k = m + 1 + (total mid + (vd.length + 1)) := by (try simp at hk); omega
        have e1 : total pre + (a + (m + 1) + (total mid + vd.length)) = total pre + (a + (m + 1 + (total mid + vd.length))) := by omega
        have h1 := emptyMulti_NA S hS pre mid post p1 a m p2 i2 t2 y2 vd ow c fr ev nx _ rfl h
        try simp only [e1]
        fitO h1 (cells pre ++ List.replicate a none) (List.replicate (m + 1) none ++ (cells mid ++ (y2 :: vd).map (fun v => some (t2, v)))) (cells post)
      · obtain rfl : k = m + 1 + (total mid + (vd.length + 1)) := by (try simp at hk); omega
        have e1 : total pre + (a + (m + 1) + (total mid + vd.length)) = total pre + (a + (m + 1 + (total mid + vd.length))) := by omega
        have h1 := emptyMulti_NP S hS pre mid post p1 a m p2 i2 t2 y2 vd (w :: vb) (by simp) ow c fr ev nx _ rfl h
        try simp only [e1]
        fitO h1 (cells pre ++ List.replicate a none) (List.replicate (m + 1) none ++ (cells mid ++ (y2 :: vd).map (fun v => some (t2, v)))) ((w :: vb).map (fun v => some (t2, v)) ++ cells post)
  · rcases va with _ | ⟨v0, va⟩
    · simp only [List.nil_append, List.length_nil, Nat.zero_add, Nat.add_zero] at *
      rcases tail0_cases b2 d ok2 hd with ⟨p2, k2, rfl⟩ | ⟨p2, i2, t2, y2, vd, vb, rfl, rfl⟩
      · obtain rfl : k = vm.length + 1 + (total mid + (d + 1)) := by (try simp at hk); omega
        have e1 : total pre + (vm.length + 1 + (total mid + d)) = total pre + (vm.length + 1 + (total mid + d)) := by omega
        have h1 := emptyMulti_AN S hS pre mid post p1 i1 t1 y1 vm p2 d k2 ow c fr ev nx _ rfl h
        try simp only [e1]
        fitO h1 (cells pre) ((y1 :: vm).map (fun v => some (t1, v)) ++ (cells mid ++ List.replicate (d + 1) none)) (List.replicate k2 none ++ cells post)
      · rcases vb with _ | ⟨w, vb⟩
        · simp only [List.append_nil, List.length_nil, Nat.zero_add, Nat.add_zero] at *
          obtain rfl : k = vm.length + 1 + (total mid + (vd.length + 1)) := by (try simp at hk); omega
          have e1 : total pre + (vm.length + 1 + (total mid + vd.length)) = total pre + (vm.length + 1 + (total mid + vd.length)) := by omega
          have h1 := emptyMulti_AA S hS pre mid post p1 i1 t1 y1 vm p2 i2 t2 y2 vd ow c fr ev nx _ rfl h
          try simp only [e1]
          fitO h1 (cells pre) ((y1 :: vm).map (fun v => some (t1, v)) ++ (cells mid ++ (y2 :: vd).map (fun v => some (t2, v)))) (cells post)
        · obtain rfl : k = vm.length + 1 + (total mid + (vd.length + 1)) := by (try simp at hk); omega
          have e1 : total pre + (vm.length + 1 + (total mid + vd.length)) = total pre + (vm.length + 1 + (total mid + vd.length)) := by omega
          have h1 := emptyMulti_AP S hS pre mid post p1 i1 t1 y1 vm p2 i2 t2 y2 vd (w :: vb) (by simp) ow c fr ev nx _ rfl h
          try simp only [e1]
          fitO h1 (cells pre) ((y1 :: vm).map (fun v => some (t1, v)) ++ (cells mid ++ (y2 :: vd).map (fun v => some (t2, v)))) ((w :: vb).map (fun v => some (t2, v)) ++ cells post)
    · rcases tail0_cases b2 d ok2 hd with ⟨p2, k2, rfl⟩ | ⟨p2, i2, t2, y2, vd, vb, rfl, rfl⟩
      · obtain rfl : k = vm.length + 1 + (total mid + (d + 1)) := by (try simp at hk); omega
        have e1 : total pre + ((v0 :: va).length + (vm.length + 1) + (total mid + d)) = total pre + ((v0 :: va).length + (vm.length + 1 + (total mid + d))) := by omega
        have h1 := emptyMulti_PN S hS pre mid post p1 i1 t1 y1 (v0 :: va) vm (by simp) p2 d k2 ow c fr ev nx _ rfl h
        try simp only [e1]
        fitO h1 (cells pre ++ (v0 :: va).map (fun v => some (t1, v))) ((y1 :: vm).map (fun v => some (t1, v)) ++ (cells mid ++ List.replicate (d + 1) none)) (List.replicate k2 none ++ cells post)
      · rcases vb with _ | ⟨w, vb⟩
        · simp only [List.append_nil, List.length_nil, Nat.zero_add, Nat.add_zero] at *
          obtain rfl : k = vm.length + 1 + (total mid + (vd.length + 1)) := by (try simp at hk); omega
          have e1 : total pre + ((v0 :: va).length + (vm.length + 1) + (total mid + vd.length)) = total pre + ((v0 :: va).length + (vm.length + 1 + (total mid + vd.length))) := by omega
          have h1 := emptyMulti_PA S hS pre mid post p1 i1 t1 y1 (v0 :: va) vm (by simp) p2 i2 t2 y2 vd ow c fr ev nx _ rfl h
          try simp only [e1]
          fitO h1 (cells pre ++ (v0 :: va).map (fun v => some (t1, v))) ((y1 :: vm).map (fun v => some (t1, v)) ++ (cells mid ++ (y2 :: vd).map (fun v => some (t2, v)))) (cells post)
        · obtain rfl : k = vm.length + 1 + (total mid + (vd.length + 1)) := by (try simp at hk); omega
          have e1 : total pre + ((v0 :: va).length + (vm.length + 1) + (total mid + vd.length)) = total pre + ((v0 :: va).length + (vm.length + 1 + (total mid + vd.length))) := by omega
          have h1 := emptyMulti_PP S hS pre mid post p1 i1 t1 y1 (v0 :: va) vm (by simp) p2 i2 t2 y2 vd (w :: vb) (by simp) ow c fr ev nx _ rfl h
          try simp only [e1]
          fitO h1 (cells pre ++ (v0 :: va).map (fun v => some (t1, v))) ((y1 :: vm).map (fun v => some (t1, v)) ++ (cells mid ++ (y2 :: vd).map (fun v => some (t2, v)))) ((w :: vb).map (fun v => some (t2, v)) ++ cells post)

end Mdds.Mtv
