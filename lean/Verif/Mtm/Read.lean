import Verif.Mtm.Ops

/-! # multi_type_matrix: reading and transposing -/

namespace Mdds.Mtm
open Mdds.Mtv (St M WF Weak weak_ne weak_all contents contents_eq cells_length pointsTo Designates cellsOf Cell At Ty Blk EB
  bind_apply obind_ok getB_ap getB nBlocks_ap curSize_ap total throw_)

set_option linter.unusedSectionVars false
set_option linter.unusedSimpArgs false

section Store
variable {α : Type} [DecidableEq α]

/-- The block and the stored value behind a position object. -/
theorem block_cell {s : St α} (h : WF Weak s) {p : Nat × Nat} {b : Blk α} (hb : s.blocks[p.1]? = some b) (hp : p.2 < b.size) :
    (b.data = none ∧ (contents s)[b.pos + p.2]? = some none) ∨
      ∃ d v, b.data = some d ∧ d.vals[p.2]? = some v ∧ (contents s)[b.pos + p.2]? = some (some (d.ty, v)) := by
  have hi : p.1 < s.blocks.length := (List.getElem?_eq_some_iff.1 hb).1
  have hbe : s.blocks[p.1] = b := (List.getElem?_eq_some_iff.1 hb).2
  have e : s.blocks = s.blocks.take p.1 ++ b :: s.blocks.drop (p.1 + 1) := by rw [← hbe]; simp
  have hpos := ((Mtv.tile_iff s.blocks 0).1 h.tile _ _ hb).1
  have hc := Mtv.cell_at h e hp
  have e2 : b.pos = total (s.blocks.take p.1) := by omega
  rw [contents_eq, e2]
  exact hc

theorem designates_block {s : St α} {p : Nat × Nat} {q : Nat} (hd : Designates s p q) (hq : q < s.cur) :
    ∃ b, s.blocks[p.1]? = some b ∧ p.2 < b.size ∧ q = b.pos + p.2 := by
  rcases hd with hd | ⟨-, h⟩
  · exact hd
  · omega

end Store

variable {D I S : Type} [DecidableEq D] [DecidableEq I] [DecidableEq S]

/-- The block shows the element at the offset. -/
def Backs (b : Blk (Val D I S)) (off : Nat) : Elem D I S → Prop
  | none => b.data = none
  | some v => ∃ d, b.data = some d ∧ d.ty = v.ty ∧ d.vals[off]? = some v

/-- The block behind a position of a matrix. -/
theorem elem_block {s : St (Val D I S)} (h : WF Weak s) {p : Nat × Nat} {q : Nat} (hd : Designates s p q) {e : Elem D I S}
    (hc : (contents s)[q]? = some (cellOf e)) :
    ∃ b, s.blocks[p.1]? = some b ∧ p.2 < b.size ∧ q = b.pos + p.2 ∧ Backs b p.2 e := by
  have hq : q < s.cur := by rw [← wf_len h]; exact (List.getElem?_eq_some_iff.1 hc).1
  obtain ⟨b, h1, h2, rfl⟩ := designates_block hd hq
  refine ⟨b, h1, h2, rfl, ?_⟩
  rcases block_cell h h1 h2 with ⟨h3, h4⟩ | ⟨d, v, h3, h4, h5⟩
  · rw [h4] at hc
    cases e with
    | none => exact h3
    | some v => simp at hc
  · rw [h5] at hc
    cases e with
    | none => simp at hc
    | some w =>
      simp only [cellOf_some, Option.some.injEq, Prod.mk.injEq] at hc
      obtain ⟨h6, rfl⟩ := hc
      exact ⟨d, h3, h6, h4⟩

theorem position_ok {m : Mtx D I S} {t : Table D I S} (hg : Good m) (hs : Shows m t) (at_ : At) {r c : Nat} (hr : r < t.rows)
    (hc : c < t.cols) : ∃ p, Mtv.position at_ (m.pos r c) m.store = .ok (p, m.store) ∧ Designates m.store p (m.pos r c) :=
  Mtv.position_in hg.wf at_ (by have := in_store hs hr hc; rw [wf_len hg.wf] at this; omega)

theorem cell_shown {m : Mtx D I S} {t : Table D I S} (hs : Shows m t) {r c : Nat} (hr : r < t.rows) (hc : c < t.cols) :
    (contents m.store)[m.pos r c]? = some (cellOf (t.at_ r c)) := by
  rw [Mtx.pos, hs.1]; exact hs.2.2.2 r c hr hc

theorem getType_ok {m : Mtx D I S} {t : Table D I S} (hg : Good m) (hs : Shows m t) {r c : Nat} (hr : r < t.rows) (hc : c < t.cols) :
    Mtv.getType (m.pos r c) m.store = .ok ((t.at_ r c).map Val.ty, m.store) := by
  have hin := in_store hs hr hc
  have := (Mtv.getType_in hg.wf (pos := m.pos r c) (by rwa [← wf_len hg.wf])).1
  rw [this, ← contents_eq, Mtv.tyAt, cell_shown hs hr hc]
  cases t.at_ r c <;> rfl

theorem get_ok {m : Mtx D I S} {t : Table D I S} (hg : Good m) (hs : Shows m t) {r c : Nat} (hr : r < t.rows) (hc : c < t.cols)
    {v : Val D I S} (hv : t.at_ r c = some v) : Mtv.get (m.pos r c) v.ty m.store = .ok (some v, m.store) := by
  have hin := in_store hs hr hc
  have hcell := cell_shown hs hr hc
  rw [hv] at hcell
  obtain ⟨w, h1, h2⟩ := Mtv.get_in hg.wf (pos := m.pos r c) (by rwa [← wf_len hg.wf]) v.ty
    (Or.inr (by rw [← contents_eq, Mtv.tyAt, hcell]; rfl))
  rw [← contents_eq, hcell] at h2
  cases w with
  | none => simp at h2
  | some w => simp at h2; rw [h1, h2]

theorem get_empty {m : Mtx D I S} {t : Table D I S} (hg : Good m) (hs : Shows m t) {r c : Nat} (hr : r < t.rows) (hc : c < t.cols)
    (hv : t.at_ r c = none) (ty : Ty) : Mtv.get (m.pos r c) ty m.store = .ok (none, m.store) := by
  have hin := in_store hs hr hc
  have hcell := cell_shown hs hr hc
  rw [hv] at hcell
  obtain ⟨w, h1, h2⟩ := Mtv.get_in hg.wf (pos := m.pos r c) (by rwa [← wf_len hg.wf]) ty
    (Or.inl (by rw [← contents_eq, Mtv.tyAt, hcell]; rfl))
  rw [← contents_eq, hcell] at h2
  cases w with
  | none => exact h1
  | some w => simp at h2

theorem getNumericAt_ok (cv : Conv D I) {s : St (Val D I S)} (h : WF Weak s) {p : Nat × Nat} {q : Nat} (hd : Designates s p q)
    {e : Elem D I S} (hc : (contents s)[q]? = some (cellOf e)) : getNumericAt cv p s = .ok (e.num cv, s) := by
  obtain ⟨b, h1, h2, -, h4⟩ := elem_block h hd hc
  simp only [getNumericAt, bind_apply, getB_ap, h1, obind_ok]
  cases e with
  | none => simp only [Backs] at h4; simp [h4, M.pure, Elem.num]
  | some v =>
    obtain ⟨d, h5, h6, h7⟩ := h4
    cases v <;> simp [h5, h6, h7, Val.ty, readVal, bind_apply, M.pure, obind_ok, Elem.num]

theorem getStringAt_ok {s : St (Val D I S)} (h : WF Weak s) {p : Nat × Nat} {q : Nat} (hd : Designates s p q)
    {e : Elem D I S} (hc : (contents s)[q]? = some (cellOf e)) :
    (∀ x, e = some (.str x) → getStringAt p s = .ok (x, s)) ∧
    ((∀ x, e ≠ some (.str x)) → getStringAt p s = .err .general s) := by
  obtain ⟨b, h1, h2, -, h4⟩ := elem_block h hd hc
  simp only [getStringAt, bind_apply, getB_ap, h1, obind_ok]
  cases e with
  | none => simp only [Backs] at h4; simp [h4, throw_]
  | some v =>
    obtain ⟨d, h5, h6, h7⟩ := h4
    cases v <;> simp [h5, h6, h7, Val.ty, readVal, bind_apply, M.pure, obind_ok, throw_]

theorem numericLoop_ok : ∀ (bs : List (Blk (Val D I S))),
    (∀ b ∈ bs, 0 < b.size ∧ (b.data = none ∨ ∃ d v, b.data = some d ∧ v ∈ d.vals ∧ d.ty = v.ty)) →
    numericLoop bs = .ok (bs.all fun b => match b.data with | none => false | some d => d.ty ≠ tStr)
  | [], _ => rfl
  | b :: bs, h => by
    have ih := numericLoop_ok bs fun c hc => h c (List.mem_cons_of_mem _ hc)
    obtain ⟨-, hb⟩ := h b List.mem_cons_self
    unfold numericLoop
    rcases hb with hb | ⟨d, v, hb, -, hv⟩
    · simp [hb]
    · cases v <;> simp [hb, hv, Val.ty, ih]

theorem numeric_ok {m : Mtx D I S} {t : Table D I S} (hg : Good m) (hs : Shows m t) :
    ∃ b, numeric m = .ok b ∧ (b = true ↔ 0 < t.rows * t.cols ∧ ∀ i j, i < t.rows → j < t.cols → (t.at_ i j).isNumeric = true) := by
  unfold numeric
  by_cases h0 : t.rows * t.cols = 0
  · refine ⟨false, if_pos (show m.store.blocks.isEmpty = true from (empty_iff hg hs).2 h0), by simp; omega⟩
  · rw [if_neg (show ¬ m.store.blocks.isEmpty = true from fun h => h0 ((empty_iff hg hs).1 h))]
    have key : ∀ (i : Nat) b, m.store.blocks[i]? = some b → 0 < b.size ∧
        (b.data = none ∨ ∃ d v, b.data = some d ∧ v ∈ d.vals ∧ d.ty = v.ty) := by
      intro i b hb
      have h1 := (Mtv.block_facts hg.wf hb).1
      refine ⟨h1, ?_⟩
      rcases block_cell hg.wf (p := (i, 0)) hb h1 with ⟨h3, -⟩ | ⟨d, v, h3, h4, h5⟩
      · exact Or.inl h3
      · obtain ⟨e, he⟩ := hg.typed _ _ h5
        cases e with
        | none => simp at he
        | some w =>
          simp at he
          exact Or.inr ⟨d, v, h3, List.mem_of_getElem? h4, by rw [he.1, he.2]⟩
    refine ⟨_, numericLoop_ok _ ?_, ?_⟩
    · intro b hb
      obtain ⟨i, hi⟩ := List.mem_iff_getElem?.1 hb
      exact key i b hi
    · rw [List.all_eq_true]
      constructor
      · intro h
        refine ⟨by omega, fun i j hi hj => ?_⟩
        obtain ⟨p, -, hp⟩ := position_ok hg hs none hi hj
        obtain ⟨b, h1, h2, -, h4⟩ := elem_block hg.wf hp (cell_shown hs hi hj)
        have hb := h b (List.mem_of_getElem? h1)
        revert h4
        cases t.at_ i j with
        | none => intro h4; simp [show b.data = none from h4] at hb
        | some v =>
          rintro ⟨d, h5, h6, -⟩
          rw [h5] at hb
          cases v <;> simp_all [Val.ty, Elem.isNumeric]
      · rintro ⟨-, h⟩ b hb
        obtain ⟨i, hi⟩ := List.mem_iff_getElem?.1 hb
        have hf := Mtv.block_facts hg.wf hi
        have hq : b.pos < m.rows * m.cols := by rw [← hg.cur]; omega
        obtain ⟨a1, a2, a3⟩ := cell_pos hq
        have e1 := hs.1
        have e2 := hs.2.1
        have hn := h (b.pos % m.rows) (b.pos / m.rows) (by omega) (by omega)
        have hcell := cell_shown hs (r := b.pos % m.rows) (c := b.pos / m.rows) (by omega) (by omega)
        rw [Mtx.pos, a3] at hcell
        obtain ⟨b', h1, h2, -, h4⟩ := elem_block hg.wf (p := (i, 0)) (q := b.pos) (Or.inl ⟨b, hi, hf.1, rfl⟩) hcell
        rw [hi] at h1; cases h1
        revert h4 hn
        cases t.at_ (b.pos % m.rows) (b.pos / m.rows) with
        | none => intro hn; simp [Elem.isNumeric] at hn
        | some v =>
          rintro hn ⟨d, h5, h6, -⟩
          rw [h5]
          cases v <;> simp_all [Val.ty, Elem.isNumeric]

theorem onOther_ok {α β : Type} {t s t' : St α} {x : M α β} {b : β} (h : x t = .ok (b, t')) : onOther t x s = .ok (b, s) := by
  simp [onOther, h]

/-! ### Transposing -/

/-- Is the element an integer? -/
def Elem.isInt : Elem D I S → Prop
  | some (.int _) => True
  | _ => False

theorem transposeOne_ok {m : Mtx D I S} {t u : Table D I S} (hg : Good m) (hs : Shows m t) {r c : Nat} (hr : r < t.rows) (hc : c < t.cols)
    {s : St (Val D I S)} (hw : WF Weak s) (hu : Shows ⟨s, t.cols, t.rows⟩ u) (hn : u.at_ c r = none) :
    (¬ (t.at_ r c).isInt → ∃ s', transposeOne m r c m.cols s = .ok ((), s') ∧ WF Weak s' ∧
      Shows ⟨s', t.cols, t.rows⟩ (u.put c r (t.at_ r c))) ∧
    ((t.at_ r c).isInt → transposeOne m r c m.cols s = .err .general s) := by
  have e1 := getType_ok hg hs hr hc
  have hur : u.rows = t.cols := hu.1.symm
  have huc : u.cols = t.rows := hu.2.1.symm
  simp only [transposeOne, bind_apply, onOther_ok e1, obind_ok]
  cases hv : t.at_ r c with
  | none =>
    refine ⟨fun _ => ⟨s, rfl, hw, hu.congr rfl rfl fun i j _ _ => ?_⟩, fun h => by simp [Elem.isInt] at h⟩
    simp only [Table.put]
    split
    · rename_i h; rw [h.1, h.2, hn]
    · rfl
  | some v =>
    have hin := in_store hu (r := c) (c := r) (by omega) (by omega)
    obtain ⟨i, s', h1, h2, -⟩ := set_patch hw none hin v.ty v
    have h4 := shows_put hu (r := c) (c := r) (e := some v) (by omega) h2
    have e2 := get_ok hg hs hr hc hv
    simp only [Mtx.pos] at h1
    rw [← hs.2.1] at h1 h4 ⊢
    have hs' : WF Weak s' ∧ Shows ⟨s', m.cols, t.rows⟩ (u.put c r (some v)) := ⟨h2.wf, h4⟩
    cases v with
    | int x => exact ⟨fun h => (h trivial).elim, fun _ => by simp [Val.ty, throw_]⟩
    | num x =>
      refine ⟨fun _ => ⟨s', ?_, hs'⟩, fun h => h.elim⟩
      simp only [Val.ty] at h1 e2
      simp [Val.ty, onOther_ok e2, h1, bind_apply, obind_ok, M.pure]
    | bool x =>
      refine ⟨fun _ => ⟨s', ?_, hs'⟩, fun h => h.elim⟩
      simp only [Val.ty] at h1 e2
      simp [Val.ty, onOther_ok e2, h1, bind_apply, obind_ok, M.pure]
    | str x =>
      refine ⟨fun _ => ⟨s', ?_, hs'⟩, fun h => h.elim⟩
      simp only [Val.ty] at h1 e2
      simp [Val.ty, onOther_ok e2, h1, bind_apply, obind_ok, M.pure]

theorem transposeRow_ok {m : Mtx D I S} {t : Table D I S} (hg : Good m) (hs : Shows m t) {r : Nat} (hr : r < t.rows) :
    ∀ (n c : Nat) {s : St (Val D I S)} {u : Table D I S}, c + n = t.cols → WF Weak s → Shows ⟨s, t.cols, t.rows⟩ u →
      (∀ i, c ≤ i → u.at_ i r = none) →
      ((∀ j, c ≤ j → j < t.cols → ¬ (t.at_ r j).isInt) → ∃ s', transposeRow m r m.cols c n s = .ok ((), s') ∧ WF Weak s' ∧
        Shows ⟨s', t.cols, t.rows⟩ ⟨u.rows, u.cols, fun i j => if j = r ∧ c ≤ i then t.at_ r i else u.at_ i j⟩) ∧
      ((∃ j, c ≤ j ∧ j < t.cols ∧ (t.at_ r j).isInt) → ∃ s', transposeRow m r m.cols c n s = .err .general s')
  | 0, c, s, u, hc, hw, hu, hn => by
    refine ⟨fun _ => ⟨s, rfl, hw, hu.congr rfl rfl fun i j hi hj => ?_⟩, fun ⟨j, h1, h2, _⟩ => by omega⟩
    have hur : t.cols = u.rows := hu.1
    simp only
    rw [if_neg (by omega)]
  | n + 1, c, s, u, hc, hw, hu, hn => by
    have hone := transposeOne_ok hg hs hr (c := c) (by omega) hw hu (hn c (Nat.le_refl _))
    by_cases hint : (t.at_ r c).isInt
    · have he := hone.2 hint
      refine ⟨fun h => (h c (Nat.le_refl _) (by omega) hint).elim, fun _ => ⟨s, ?_⟩⟩
      simp only [transposeRow, bind_apply, he, Mtv.Res.bind]
    · obtain ⟨s1, h1, h2, h3⟩ := hone.1 hint
      have ih := transposeRow_ok hg hs hr n (c + 1) (by omega) h2 h3 (fun i hi => by
        simp only [Table.put]; rw [if_neg (by omega)]; exact hn i (by omega))
      have e : ∀ x, transposeRow m r m.cols (c + 1) n s1 = x → transposeRow m r m.cols c (n + 1) s = x := by
        intro x hx
        simp only [transposeRow, bind_apply, h1, obind_ok, hx]
      constructor
      · intro h
        obtain ⟨s', h5, h6, h7⟩ := ih.1 fun j hj1 hj2 => h j (by omega) hj2
        refine ⟨s', e _ h5, h6, h7.congr rfl rfl fun i j hi hj => ?_⟩
        simp only [Table.put]
        by_cases h' : j = r ∧ c ≤ i
        · rw [if_pos h']
          by_cases h'' : j = r ∧ c + 1 ≤ i
          · rw [if_pos h'']
          · have hic : i = c := by omega
            rw [if_neg h'', if_pos ⟨hic, h'.1⟩, hic]
        · rw [if_neg h', if_neg (by omega), if_neg (by omega)]
      · rintro ⟨j, hj1, hj2, hj3⟩
        have hne : j ≠ c := fun hh => hint (hh ▸ hj3)
        obtain ⟨s', h5⟩ := ih.2 ⟨j, by omega, hj2, hj3⟩
        exact ⟨s', e _ h5⟩

theorem transposeRows_ok {m : Mtx D I S} {t : Table D I S} (hg : Good m) (hs : Shows m t) :
    ∀ (n r : Nat) {s : St (Val D I S)} {u : Table D I S}, r + n = t.rows → WF Weak s → Shows ⟨s, t.cols, t.rows⟩ u →
      (∀ i j, r ≤ j → u.at_ i j = none) →
      ((∀ i j, r ≤ i → i < t.rows → j < t.cols → ¬ (t.at_ i j).isInt) → ∃ s', transposeRows m m.cols r n s = .ok ((), s') ∧ WF Weak s' ∧
        Shows ⟨s', t.cols, t.rows⟩ ⟨u.rows, u.cols, fun i j => if r ≤ j then t.at_ j i else u.at_ i j⟩) ∧
      ((∃ i j, r ≤ i ∧ i < t.rows ∧ j < t.cols ∧ (t.at_ i j).isInt) → ∃ s', transposeRows m m.cols r n s = .err .general s')
  | 0, r, s, u, hc, hw, hu, hn => by
    refine ⟨fun _ => ⟨s, rfl, hw, hu.congr rfl rfl fun i j hi hj => ?_⟩, fun ⟨i, j, h1, h2, _⟩ => by omega⟩
    have hur : t.rows = u.cols := hu.2.1
    simp only
    rw [if_neg (by omega)]
  | n + 1, r, s, u, hc, hw, hu, hn => by
    have hone := transposeRow_ok hg hs (r := r) (by omega) m.cols 0 (by rw [Nat.zero_add]; exact hs.2.1) hw hu
      (fun i _ => hn i r (Nat.le_refl _))
    by_cases hint : ∃ j, j < t.cols ∧ (t.at_ r j).isInt
    · obtain ⟨j, hj1, hj2⟩ := hint
      obtain ⟨s', he⟩ := hone.2 ⟨j, Nat.zero_le _, hj1, hj2⟩
      refine ⟨fun h => (h r j (Nat.le_refl _) (by omega) hj1 hj2).elim, fun _ => ⟨s', ?_⟩⟩
      simp only [transposeRows, bind_apply, he, Mtv.Res.bind]
    · obtain ⟨s1, h1, h2, h3⟩ := hone.1 fun j _ hj hh => hint ⟨j, hj, hh⟩
      have ih := transposeRows_ok hg hs n (r + 1) (by omega) h2 h3 (fun i j hj => by
        simp only; rw [if_neg (by omega)]; exact hn i j (by omega))
      have e : ∀ x, transposeRows m m.cols (r + 1) n s1 = x → transposeRows m m.cols r (n + 1) s = x := by
        intro x hx
        simp only [transposeRows, bind_apply, h1, obind_ok, hx]
      constructor
      · intro h
        obtain ⟨s', h5, h6, h7⟩ := ih.1 fun i j hi1 hi2 hj => h i j (by omega) hi2 hj
        refine ⟨s', e _ h5, h6, h7.congr rfl rfl fun i j hi hj => ?_⟩
        simp only
        by_cases h' : r ≤ j
        · rw [if_pos h']
          by_cases h'' : r + 1 ≤ j
          · rw [if_pos h'']
          · have hic : j = r := by omega
            rw [if_neg h'', if_pos ⟨hic, Nat.zero_le _⟩, hic]
        · rw [if_neg h', if_neg (by omega), if_neg (by omega)]
      · rintro ⟨i, j, hi1, hi2, hj2, hj3⟩
        have hne : i ≠ r := fun hh => hint ⟨j, hj2, hh ▸ hj3⟩
        obtain ⟨s', h5⟩ := ih.2 ⟨i, j, by omega, hi2, hj2, hj3⟩
        exact ⟨s', e _ h5⟩

theorem transpose_ok {m : Mtx D I S} {t : Table D I S} (hg : Good m) (hs : Shows m t) :
    ((∀ i j, i < t.rows → j < t.cols → ¬ (t.at_ i j).isInt) → ∃ m', transpose m = .ok () m' ∧ Good m' ∧ Shows m' t.flip) ∧
    ((∃ i j, i < t.rows ∧ j < t.cols ∧ (t.at_ i j).isInt) → transpose m = .err .general m) := by
  have hgs := good_sized (D := D) (I := I) (S := S) t.cols t.rows
  have hinit : Shows ⟨(mkSize m.cols m.rows : Mtx D I S).store, t.cols, t.rows⟩ (Table.const t.cols t.rows none) := by
    rw [hs.1, hs.2.1]; exact hgs.2
  have hw : WF Weak (mkSize m.cols m.rows : Mtx D I S).store := by rw [hs.1, hs.2.1]; exact hgs.1.wf
  have main := transposeRows_ok hg hs m.rows 0 (by rw [Nat.zero_add]; exact hs.1) hw hinit (fun _ _ _ => rfl)
  constructor
  · intro h
    obtain ⟨s', h1, h2, h3⟩ := main.1 fun i j _ hi hj => h i j hi hj
    have h4 : Shows ⟨s', m.cols, m.rows⟩ t.flip := by
      rw [hs.1, hs.2.1]
      exact h3.congr rfl rfl fun i j hi hj => by simp [Table.flip]
    exact ⟨⟨s', m.cols, m.rows⟩, by simp only [transpose, h1], h4.good h2, h4⟩
  · rintro ⟨i, j, hi, hj, hh⟩
    obtain ⟨s', h1⟩ := main.2 ⟨i, j, Nat.zero_le _, hi, hj, hh⟩
    simp only [transpose, h1]

end Mdds.Mtm
