import Verif.Mtm.Read

/-! # multi_type_matrix: copying and resizing -/

namespace Mdds.Mtm
open Mdds.Mtv (St M WF Weak weak_ne weak_all contents contents_eq cells_length pointsTo Designates cellsOf Cell At Ty Blk EB
  bind_apply obind_ok getB_ap getB nBlocks_ap curSize_ap total throw_)

set_option linter.unusedSectionVars false
set_option linter.unusedSimpArgs false

section Store
variable {α : Type} [DecidableEq α]

theorem Patch.refl {s : St α} (h : WF Weak s) (p : Nat) : Patch s s p [] :=
  ⟨h, rfl, fun q => by simp only [List.length_nil, Nat.add_zero]; rw [if_neg (by omega)]⟩

theorem Patch.append {s s1 s2 : St α} {p : Nat} {A B : List (Cell α)} (h1 : Patch s s1 p A)
    (h2 : Patch s1 s2 (p + A.length) B) : Patch s s2 p (A ++ B) := by
  refine ⟨h2.wf, h2.len.trans h1.len, fun q => ?_⟩
  rw [h2.get, h1.get, List.length_append]
  by_cases c1 : p + A.length ≤ q ∧ q < p + A.length + B.length
  · rw [if_pos c1, if_pos (by omega), List.getElem?_append_right (by omega)]
    congr 1; omega
  · rw [if_neg c1]
    by_cases c2 : p ≤ q ∧ q < p + A.length
    · rw [if_pos c2, if_pos (by omega), List.getElem?_append_left (by omega)]
    · rw [if_neg c2, if_neg (by omega)]

/-- The cells of a stretch inside one block. -/
def sectionCells (b : Blk α) (off n : Nat) : List (Cell α) :=
  match b.data with
  | none => List.replicate n none
  | some d => cellsOf d.ty ((d.vals.drop off).take n)

theorem section_eq {s : St α} (h : WF Weak s) {i : Nat} {b : Blk α} (hb : s.blocks[i]? = some b) {off n : Nat}
    (hn : off + n ≤ b.size) : ((contents s).drop (b.pos + off)).take n = sectionCells b off n := by
  apply List.ext_getElem?
  intro k
  by_cases hk : k < n
  · rw [List.getElem?_take_of_lt hk, List.getElem?_drop]
    have e : b.pos + off + k = b.pos + (off + k) := by omega
    rw [e]
    unfold sectionCells
    rcases block_cell h (p := (i, off + k)) hb (by simp only; omega) with ⟨h3, h4⟩ | ⟨d, v, h3, h4, h5⟩
    · rw [h4, h3]; simp [List.getElem?_replicate, hk]
    · simp only at h4
      rw [h5, h3]
      simp only [cellsOf, List.getElem?_map, List.getElem?_take_of_lt hk, List.getElem?_drop, h4]
      rfl
  · have hlen : (((contents s).drop (b.pos + off)).take n).length ≤ n := by simp; omega
    have hlen2 : (sectionCells b off n).length ≤ n := by
      unfold sectionCells; cases b.data <;> simp [cellsOf]; omega
    rw [List.getElem?_eq_none (by omega), List.getElem?_eq_none (by omega)]

theorem section_length {s : St α} (h : WF Weak s) {i : Nat} {b : Blk α} (hb : s.blocks[i]? = some b) {off n : Nat}
    (hn : off + n ≤ b.size) : (sectionCells b off n).length = n := by
  rw [← section_eq h hb hn]
  have := (Mtv.block_facts h hb).2.1
  have hl := wf_len h
  simp; omega

/-- The position one block further. -/
theorem next_block {s : St α} (h : WF Weak s) {i : Nat} {b : Blk α} (hb : s.blocks[i]? = some b) :
    Designates s (i + 1, 0) (b.pos + b.size) := by
  rcases (Mtv.block_facts h hb).2.2.1 with ⟨c, h1, h2⟩ | ⟨h1, h2⟩
  · exact Or.inl ⟨c, h1, (Mtv.block_facts h h1).1, h2.symm⟩
  · exact Or.inr ⟨by rw [h1], h2.symm⟩

end Store

variable {D I S : Type} [DecidableEq D] [DecidableEq I] [DecidableEq S]

/-- The cell holds an integer. -/
def intCell (c : Cell (Val D I S)) : Prop := ∃ v, c = some (tInt, v)

/-- The block is one of the types the matrix knows. -/
def KnownBlk (b : Blk (Val D I S)) : Prop :=
  b.data = none ∨ ∃ d, b.data = some d ∧ (d.ty = tNum ∨ d.ty = tBool ∨ d.ty = tStr ∨ d.ty = tInt)

theorem known {s : St (Val D I S)} (h : WF Weak s) (ht : ∀ (q : Nat) c, (contents s)[q]? = some c → ∃ e, c = cellOf e)
    {i : Nat} {b : Blk (Val D I S)} (hb : s.blocks[i]? = some b) : KnownBlk b := by
  have h1 := (Mtv.block_facts h hb).1
  rcases block_cell h (p := (i, 0)) hb h1 with ⟨h3, -⟩ | ⟨d, v, h3, h4, h5⟩
  · exact Or.inl h3
  · obtain ⟨e, he⟩ := ht _ _ h5
    cases e with
    | none => simp at he
    | some w =>
      simp at he
      refine Or.inr ⟨d, h3, ?_⟩
      rw [he.1]
      cases w <;> simp [Val.ty]

theorem copySections_ok {src : St (Val D I S)} (hw' : WF Weak src)
    (ht : ∀ (q : Nat) c, (contents src)[q]? = some c → ∃ e, c = cellOf e) :
    ∀ (fuel : Nat) {s : St (Val D I S)} {pd ps : Nat × Nat} {q p rem : Nat}, WF Weak s → Designates s pd q → Designates src ps p →
      0 < rem → q + rem ≤ (contents s).length → p + rem ≤ (contents src).length → src.blocks.length < fuel + ps.1 →
      ((∀ c ∈ ((contents src).drop p).take rem, ¬ intCell c) →
        ∃ o s', copySections src fuel pd ps rem s = .ok (o, s') ∧ Patch s s' q (((contents src).drop p).take rem) ∧
          (o = none → (contents s).length ≤ q + rem)) ∧
      ((∃ c ∈ ((contents src).drop p).take rem, intCell c) →
        ∃ s' k, copySections src fuel pd ps rem s = .err .general s' ∧ Patch s s' q ((((contents src).drop p).take rem).take k))
  | 0, s, pd, ps, q, p, rem, _, _, hps, _, _, hp, hf => by
    exfalso
    have hl := wf_len hw'
    obtain ⟨b, hb, -, -⟩ := designates_block hps (by omega)
    have := (List.getElem?_eq_some_iff.1 hb).1
    omega
  | fuel + 1, s, pd, ps, q, p, rem, hw, hpd, hps, hr, hq, hp, hf => by
    have hl := wf_len hw
    have hl' := wf_len hw'
    obtain ⟨b, hb, hoff, hpos⟩ := designates_block hps (by omega)
    have hlog := Mtv.logical_ok hpd (show q < s.cur by omega)
    have hbl := (List.getElem?_eq_some_iff.1 hb).1
    have hbf := Mtv.block_facts hw' hb
    obtain ⟨sec, hsec⟩ : ∃ sec, sec = min (b.size - ps.2) rem := ⟨_, rfl⟩
    have hs0 : 0 < sec := by omega
    have hs1 : sec ≤ rem := by omega
    have hs2 : ps.2 + sec ≤ b.size := by omega
    have hget : onOther src (getB ps.1) s = .ok (b, s) := onOther_ok (t' := src) (by simp [getB_ap, hb])
    have hX : ((contents src).drop p).take sec = sectionCells b ps.2 sec := by rw [hpos]; exact section_eq hw' hb hs2
    have hXl := section_length hw' hb hs2
    have hsplit : ((contents src).drop p).take rem = sectionCells b ps.2 sec ++ ((contents src).drop (p + sec)).take (rem - sec) := by
      rw [← hX, ← List.drop_drop, ← List.take_add]
      congr 1; omega
    -- one section, for the types that are copied
    have step : ∀ (x : M (Val D I S) Nat), (∃ blk s1, x s = .ok (blk, s1) ∧ Patch s s1 q (sectionCells b ps.2 sec)) →
        (match b.data with
          | none => Mtv.setEmpty (some (some pd.1)) q (q + sec - 1)
          | some d =>
            if d.ty = tNum ∨ d.ty = tBool ∨ d.ty = tStr then
              Mtv.setRange (some (some pd.1)) q d.ty ((d.vals.drop ps.2).take sec)
            else throw_ .general) = x →
        ((∀ c ∈ ((contents src).drop p).take rem, ¬ intCell c) →
          ∃ o s', copySections src (fuel + 1) pd ps rem s = .ok (o, s') ∧ Patch s s' q (((contents src).drop p).take rem) ∧
            (o = none → (contents s).length ≤ q + rem)) ∧
        ((∃ c ∈ ((contents src).drop (p + sec)).take (rem - sec), intCell c) →
          ∃ s' k, copySections src (fuel + 1) pd ps rem s = .err .general s' ∧
            Patch s s' q ((((contents src).drop p).take rem).take k)) := by
      rintro x ⟨blk, s1, hx, hpatch⟩ hxe
      have hw1 := hpatch.wf
      have hl1 := wf_len hw1
      have hlen1 := hpatch.len
      have run : copySections src (fuel + 1) pd ps rem s =
          (if s1.cur ≤ q + sec then (M.pure none : M (Val D I S) _) else do
            let pd' ← Mtv.position (some (some blk)) (q + sec)
            if rem - sec = 0 then M.pure (some (pd', (ps.1 + 1, 0)))
            else copySections src fuel pd' (ps.1 + 1, 0) (rem - sec)) s1 := by
        rw [copySections]
        simp only [bind_apply, hget, obind_ok, if_neg (Nat.not_lt.2 (Nat.le_of_lt hoff)), hlog, ← hsec]
        refine (congrArg (fun r => Mtv.Res.bind r _) ((congrFun hxe s).trans hx)).trans ?_
        simp only [obind_ok, curSize_ap]
      by_cases hfull : s1.cur ≤ q + sec
      · have hrem : rem = sec := by omega
        rw [if_pos hfull] at run
        refine ⟨fun _ => ⟨none, s1, run, ?_, fun _ => by omega⟩, ?_⟩
        · rw [hsplit, hrem]; simpa using hpatch
        · rintro ⟨c, hc, -⟩
          rw [hrem] at hc; simp at hc
      · rw [if_neg hfull] at run
        obtain ⟨pd', hp1, hp2⟩ := Mtv.position_in hw1 (some (some blk)) (pos := q + sec) (by omega)
        simp only [bind_apply, hp1, obind_ok] at run
        by_cases hz : rem - sec = 0
        · have hrem : rem = sec := by omega
          rw [if_pos hz] at run
          refine ⟨fun _ => ⟨_, s1, run, ?_, fun h => by simp at h⟩, ?_⟩
          · rw [hsplit, hrem]; simpa using hpatch
          · rintro ⟨c, hc, -⟩
            rw [hrem] at hc; simp at hc
        · rw [if_neg hz] at run
          have hfin : p + sec = b.pos + b.size := by omega
          have hps' : Designates src (ps.1 + 1, 0) (p + sec) := by rw [hfin]; exact next_block hw' hb
          have ih := copySections_ok hw' ht fuel hw1 hp2 hps' (rem := rem - sec) (by omega) (by omega) (by omega)
            (by simp only; omega)
          constructor
          · intro hno
            obtain ⟨o, s', h1, h2, h3⟩ := ih.1 fun c hc => hno c (by rw [hsplit]; exact List.mem_append_right _ hc)
            refine ⟨o, s', run.trans h1, ?_, fun ho => by have := h3 ho; omega⟩
            rw [hsplit]
            exact hpatch.append (by rw [hXl]; exact h2)
          · intro hint
            obtain ⟨s', k, h1, h2⟩ := ih.2 hint
            refine ⟨s', sec + k, run.trans h1, ?_⟩
            rw [hsplit, List.take_append, List.take_of_length_le (by omega), hXl, Nat.add_sub_cancel_left]
            exact hpatch.append (by rw [hXl]; exact h2)
    rcases known hw' ht hb with hd | ⟨d, hd, hty⟩
    · have hX' : sectionCells b ps.2 sec = List.replicate sec none := by simp [sectionCells, hd]
      obtain ⟨i, s1, h1, h2, -⟩ := setEmpty_patch hw (some (some pd.1)) (a := q) (b := q + sec - 1) (by omega) (by omega)
      have e : q + sec - 1 - q + 1 = sec := by omega
      rw [e, ← hX'] at h2
      have := step _ ⟨i, s1, h1, h2⟩ (by rw [hd])
      refine ⟨this.1, ?_⟩
      rintro ⟨c, hc, hint⟩
      rw [hsplit, hX'] at hc
      rcases List.mem_append.1 hc with hc | hc
      · obtain ⟨v, hv⟩ := hint; rw [List.eq_of_mem_replicate hc] at hv; cases hv
      · exact this.2 ⟨c, hc, hint⟩
    · have hX' : sectionCells b ps.2 sec = cellsOf d.ty ((d.vals.drop ps.2).take sec) := by simp [sectionCells, hd]
      have hvl : ((d.vals.drop ps.2).take sec).length = sec := by
        have := hXl; rw [hX'] at this; simpa [cellsOf] using this
      by_cases hint : d.ty = tInt
      · have hmem : ∃ c ∈ ((contents src).drop p).take rem, intCell c := by
          rw [hsplit, hX']
          obtain ⟨v, hv⟩ := List.exists_mem_of_length_pos (l := (d.vals.drop ps.2).take sec) (by omega)
          exact ⟨some (d.ty, v), List.mem_append_left _ (List.mem_map.2 ⟨v, hv, rfl⟩), v, by rw [hint]⟩
        refine ⟨fun h => ?_, fun _ => ⟨s, 0, ?_, by rw [List.take_zero]; exact Patch.refl hw q⟩⟩
        · obtain ⟨c, hc, hh⟩ := hmem; exact (h c hc hh).elim
        · rw [copySections]
          simp only [bind_apply, hget, obind_ok, if_neg (Nat.not_lt.2 (Nat.le_of_lt hoff)), hlog, ← hsec, hd]
          simp [hint, throw_, Mtv.Res.bind]
      · have hty' : d.ty = tNum ∨ d.ty = tBool ∨ d.ty = tStr := by tauto
        obtain ⟨i, s1, h1, h2, -⟩ := setRange_patch hw (some (some pd.1)) (pos := q) d.ty ((d.vals.drop ps.2).take sec)
          (by intro h0; rw [h0] at hvl; simp at hvl; omega) (by omega)
        rw [← hX'] at h2
        have := step _ ⟨i, s1, h1, h2⟩ (by rw [hd]; simp only; rw [if_pos hty'])
        refine ⟨this.1, ?_⟩
        rintro ⟨c, hc, hint'⟩
        rw [hsplit, hX'] at hc
        rcases List.mem_append.1 hc with hc | hc
        · exfalso
          obtain ⟨v, hv⟩ := hint'
          obtain ⟨w, -, hw2⟩ := List.mem_map.1 hc
          rw [hv] at hw2
          simp at hw2
          exact hint hw2.1
        · exact this.2 ⟨c, hc, hint'⟩

theorem intCell_iff (e : Elem D I S) : intCell (cellOf e) ↔ e.isInt := by
  cases e with
  | none => simp [intCell, cellOf, Elem.isInt]
  | some v => cases v <;> simp [intCell, cellOf, Elem.isInt, Val.ty, tNum, tInt, tBool, tStr]

theorem col_room {R C c n : Nat} (hn : n ≤ R) (hc : c < C) : R * c + n ≤ R * C := by
  have : R * (c + 1) ≤ R * C := Nat.mul_le_mul_left _ hc
  rw [Nat.mul_succ] at this; omega

/-- The top of a column of the store. -/
theorem col_cells {m : Mtx D I S} {t : Table D I S} (hs : Shows m t) {c n : Nat} (hc : c < t.cols) (hn : n ≤ t.rows) :
    (((contents m.store).drop (t.rows * c)).take n).length = n ∧
    ∀ k : Nat, k < n → (((contents m.store).drop (t.rows * c)).take n)[k]? = some (cellOf (t.at_ k c)) := by
  have hl : (contents m.store).length = t.rows * t.cols := by rw [hs.2.2.1, hs.1, hs.2.1]
  have := col_room hn hc
  refine ⟨by simp; omega, fun k hk => ?_⟩
  rw [List.getElem?_take_of_lt hk, List.getElem?_drop]
  exact hs.2.2.2 k c (by omega) hc

/-- The table with the tops of some columns taken from another one. -/
def Table.cols_ (u t : Table D I S) (rows col n : Nat) : Table D I S :=
  ⟨u.rows, u.cols, fun i j => if i < rows ∧ col ≤ j ∧ j < col + n then t.at_ i j else u.at_ i j⟩

/-- Every element of `v` is the one of `u` or, where `t` has one, that of `t`. -/
def Mixed (u t v : Table D I S) : Prop :=
  v.rows = u.rows ∧ v.cols = u.cols ∧
  ∀ i j, i < u.rows → j < u.cols → v.at_ i j = u.at_ i j ∨ (i < t.rows ∧ j < t.cols ∧ v.at_ i j = t.at_ i j)

theorem copyCols_ok {src : Mtx D I S} {t : Table D I S} (hg : Good src) (ht : Shows src t) {rows : Nat} (h0 : 0 < rows)
    (hr : rows ≤ t.rows) :
    ∀ (n col : Nat) {s : St (Val D I S)} {u : Table D I S} (pd ps : Nat × Nat), rows ≤ u.rows → col + n ≤ t.cols → col + n ≤ u.cols →
      WF Weak s → Shows ⟨s, u.rows, u.cols⟩ u →
      ((∀ i j, i < rows → col ≤ j → j < col + n → ¬ (t.at_ i j).isInt) →
        ∃ s', copyCols src.store u.rows src.rows rows col n pd ps s = .ok ((), s') ∧ WF Weak s' ∧
          Shows ⟨s', u.rows, u.cols⟩ (u.cols_ t rows col n)) ∧
      ((∃ i j, i < rows ∧ col ≤ j ∧ j < col + n ∧ (t.at_ i j).isInt) →
        ∃ s' v, copyCols src.store u.rows src.rows rows col n pd ps s = .err .general s' ∧ WF Weak s' ∧
          Shows ⟨s', u.rows, u.cols⟩ v ∧ Mixed u t v)
  | 0, col, s, u, pd, ps, hu, hc, hc', hw, hs => by
    refine ⟨fun _ => ⟨s, rfl, hw, hs.congr rfl rfl fun i j _ _ => ?_⟩, fun ⟨i, j, _, h1, h2, _⟩ => by omega⟩
    simp only [Table.cols_]
    rw [if_neg (by omega)]
  | n + 1, col, s, u, pd, ps, hu, hc, hc', hw, hs => by
    have hl : (contents s).length = u.rows * u.cols := hs.2.2.1
    have hl' : (contents src.store).length = t.rows * t.cols := by rw [ht.2.2.1, ht.1, ht.2.1]
    have hroom := col_room hu (show col < u.cols by omega)
    have hroom' := col_room hr (show col < t.cols by omega)
    have hcur := wf_len hw
    have hcur' := wf_len hg.wf
    obtain ⟨pd', hp1, hp2⟩ := Mtv.position_in hw (some (some pd.1)) (pos := u.rows * col) (by omega)
    obtain ⟨ps', hq1, hq2⟩ := Mtv.position_in hg.wf (some (some ps.1)) (pos := t.rows * col) (by omega)
    obtain ⟨hXl, hXg⟩ := col_cells ht (show col < t.cols by omega) hr
    have sec := copySections_ok hg.wf hg.typed (src.store.blocks.length + 1) (rem := rows) hw hp2 hq2 h0 (by omega) (by omega)
      (by omega)
    have hmem : ∀ c, c ∈ ((contents src.store).drop (t.rows * col)).take rows ↔ ∃ k, k < rows ∧ c = cellOf (t.at_ k col) := by
      intro c
      constructor
      · intro hc
        obtain ⟨k, hk⟩ := List.mem_iff_getElem?.1 hc
        have hkl : k < rows := by rw [← hXl]; exact (List.getElem?_eq_some_iff.1 hk).1
        rw [hXg k hkl] at hk
        exact ⟨k, hkl, (Option.some.inj hk).symm⟩
      · rintro ⟨k, hk, rfl⟩
        exact List.mem_of_getElem? (hXg k hk)
    have unf : ∀ r, copySections src.store (src.store.blocks.length + 1) pd' ps' rows s = r →
        copyCols src.store u.rows src.rows rows col (n + 1) pd ps s =
          Mtv.Res.bind r fun p => (match p.1 with
            | none => M.pure ()
            | some (pd, ps) => copyCols src.store u.rows src.rows rows (col + 1) n pd ps : M (Val D I S) Unit) p.2 := by
      intro r hr'
      rw [copyCols]
      simp only [bind_apply, hp1, obind_ok, ht.1, onOther_ok hq1, hr']
      rfl
    have first : (∀ i, i < rows → ¬ (t.at_ i col).isInt) → ∃ o s1,
        copySections src.store (src.store.blocks.length + 1) pd' ps' rows s = .ok (o, s1) ∧ WF Weak s1 ∧
        Shows ⟨s1, u.rows, u.cols⟩ (u.putColumn col rows fun k => t.at_ k col) ∧ (o = none → n = 0) := by
      intro hno
      obtain ⟨o, s1, h1, h2, h3⟩ := sec.1 fun c hc hi => by
        obtain ⟨k, hk, rfl⟩ := (hmem c).1 hc
        exact hno k hk ((intCell_iff _).1 hi)
      have h4 := shows_col (m := ⟨s, u.rows, u.cols⟩) hs (c := col) (f := fun k => t.at_ k col) (by rw [hXl]; exact hu) h2
        (by rw [hXl]; exact hXg)
      rw [hXl] at h4
      refine ⟨o, s1, h1, h2.wf, h4, fun ho => ?_⟩
      have h5 := h3 ho
      rw [hl] at h5
      by_contra hn
      have h6 : u.rows * (col + 2) ≤ u.rows * u.cols := Nat.mul_le_mul_left _ (by omega)
      rw [Nat.mul_add] at h6
      omega
    constructor
    · intro hno
      obtain ⟨o, s1, h1, h2, h3, h4⟩ := first fun i hi => hno i col hi (Nat.le_refl _) (by omega)
      have hrun := unf _ h1
      cases o with
      | none =>
        have hn := h4 rfl
        subst hn
        refine ⟨s1, hrun, h2, h3.congr rfl rfl fun i j hi hj => ?_⟩
        simp only [Table.cols_, Table.putColumn]
        by_cases hc1 : j = col ∧ i < rows
        · rw [if_pos hc1, if_pos (by omega), hc1.1]
        · rw [if_neg hc1, if_neg (by omega)]
      | some o =>
        have ih := (copyCols_ok hg ht h0 hr n (col + 1) (s := s1) (u := u.putColumn col rows fun k => t.at_ k col) o.1 o.2
          hu (by omega) (by simp only [Table.putColumn]; omega) h2 h3).1
          fun i j hi hj hj' => hno i j hi (by omega) (by omega)
        obtain ⟨s', h5, h6, h7⟩ := ih
        refine ⟨s', hrun.trans h5, h6, h7.congr rfl rfl fun i j hi hj => ?_⟩
        simp only [Table.cols_, Table.putColumn]
        by_cases hc1 : j = col ∧ i < rows
        · rw [if_pos (by omega), if_neg (by omega), if_pos hc1, hc1.1]
        · by_cases hc2 : i < rows ∧ col + 1 ≤ j ∧ j < col + 1 + n
          · rw [if_pos (by omega), if_pos hc2]
          · rw [if_neg (by omega), if_neg hc2, if_neg hc1]
    · rintro ⟨i, j, hi, hj1, hj2, hint⟩
      by_cases hfst : ∃ i, i < rows ∧ (t.at_ i col).isInt
      · obtain ⟨i', hi', hint'⟩ := hfst
        obtain ⟨s1, k, h1, h2⟩ := sec.2 ⟨_, (hmem _).2 ⟨i', hi', rfl⟩, (intCell_iff _).2 hint'⟩
        have hkl : ((((contents src.store).drop (t.rows * col)).take rows).take k).length = min k rows := by
          rw [List.length_take, hXl]
        have h4 := shows_col (m := ⟨s, u.rows, u.cols⟩) hs (c := col) (f := fun k => t.at_ k col) (by rw [hkl]; omega) h2
          (fun q hq => by
            rw [hkl] at hq
            rw [List.getElem?_take_of_lt (by omega)]; exact hXg q (by omega))
        refine ⟨s1, _, unf _ h1, h2.wf, h4, rfl, rfl, fun i j hi hj => ?_⟩
        simp only [Table.putColumn, hkl]
        by_cases hc1 : j = col ∧ i < min k rows
        · rw [if_pos hc1]; exact Or.inr ⟨by omega, by omega, by rw [hc1.1]⟩
        · rw [if_neg hc1]; exact Or.inl rfl
      · have hno : ∀ i, i < rows → ¬ (t.at_ i col).isInt := fun i hi hh => hfst ⟨i, hi, hh⟩
        obtain ⟨o, s1, h1, h2, h3, h4⟩ := first hno
        have hrun := unf _ h1
        have hjc : col + 1 ≤ j := by
          rcases Nat.lt_or_ge col j with h | h
          · exact h
          · have : j = col := by omega
            subst this; exact (hno i hi hint).elim
        cases o with
        | none => have := h4 rfl; omega
        | some o =>
          have ih := (copyCols_ok hg ht h0 hr n (col + 1) (s := s1) (u := u.putColumn col rows fun k => t.at_ k col) o.1 o.2
            hu (by omega) (by simp only [Table.putColumn]; omega) h2 h3).2 ⟨i, j, hi, hjc, by omega, hint⟩
          obtain ⟨s', v, h5, h6, h7, h8, h9, h10⟩ := ih
          refine ⟨s', v, hrun.trans h5, h6, h7, h8, h9, fun i j hi hj => ?_⟩
          rcases h10 i j hi hj with h | h
          · simp only [Table.putColumn] at h
            by_cases hc1 : j = col ∧ i < rows
            · rw [if_pos hc1] at h
              exact Or.inr ⟨by omega, by omega, by rw [h, hc1.1]⟩
            · rw [if_neg hc1] at h
              exact Or.inl h
          · exact Or.inr h

theorem copyFrom_ok {m src : Mtx D I S} {t u : Table D I S} (hgm : Good m) (hm : Shows m u) (hg : Good src) (ht : Shows src t) :
    ((∀ i j, i < u.rows → j < u.cols → i < t.rows → j < t.cols → ¬ (t.at_ i j).isInt) →
      ∃ m', copyFrom src m = .ok () m' ∧ Good m' ∧ Shows m' (u.overlay t)) ∧
    ((∃ i j, i < u.rows ∧ j < u.cols ∧ i < t.rows ∧ j < t.cols ∧ (t.at_ i j).isInt) →
      ∃ m' v, copyFrom src m = .err .general m' ∧ Good m' ∧ Shows m' v ∧ Mixed u t v) := by
  by_cases he : empty m = true ∨ empty src = true
  · have hz : u.rows * u.cols = 0 ∨ t.rows * t.cols = 0 := he.imp (empty_iff hgm hm).1 (empty_iff hg ht).1
    have hno : ∀ i j, i < u.rows → j < u.cols → i < t.rows → j < t.cols → False := by
      intro i j h1 h2 h3 h4
      rcases hz with h | h <;> rcases Nat.mul_eq_zero.1 h with h | h <;> omega
    refine ⟨fun _ => ⟨m, by rw [copyFrom, if_pos he], hgm, hm.congr rfl rfl fun i j hi hj => ?_⟩, ?_⟩
    · simp only [Table.overlay]
      rw [if_neg fun h => hno i j hi hj h.1 h.2]
    · rintro ⟨i, j, h1, h2, h3, h4, -⟩
      exact (hno i j h1 h2 h3 h4).elim
  · have hzu : 0 < u.rows * u.cols := Nat.pos_of_ne_zero fun h => he (Or.inl ((empty_iff hgm hm).2 h))
    have hzt : 0 < t.rows * t.cols := Nat.pos_of_ne_zero fun h => he (Or.inr ((empty_iff hg ht).2 h))
    have hur := Nat.pos_of_mul_pos_right hzu
    have htr := Nat.pos_of_mul_pos_right hzt
    have hcu := hgm.cur
    have hct := hg.cur
    rw [hm.1, hm.2.1] at hcu
    rw [ht.1, ht.2.1] at hct
    obtain ⟨pd, hp1, -⟩ := Mtv.position_in hgm.wf none (pos := 0) (by omega)
    obtain ⟨ps, hq1, -⟩ := Mtv.position_in hg.wf none (pos := 0) (by omega)
    have main := copyCols_ok hg ht (rows := min m.rows src.rows) (by rw [hm.1, ht.1]; omega) (by rw [ht.1]; omega)
      (min m.cols src.cols) 0 (s := m.store) (u := u) pd ps (by rw [hm.1]; omega) (by rw [ht.2.1]; omega) (by rw [hm.2.1]; omega)
      hgm.wf (by rw [← hm.1, ← hm.2.1]; exact hm)
    rw [← hm.1, ← hm.2.1] at main
    have unf : ∀ r, copyCols src.store m.rows src.rows (min m.rows src.rows) 0 (min m.cols src.cols) pd ps m.store = r →
        (do
          let pd ← Mtv.position none 0
          let ps ← onOther src.store (Mtv.position none 0)
          copyCols src.store m.rows src.rows (min m.rows src.rows) 0 (min m.cols src.cols) pd ps : M (Val D I S) Unit) m.store = r := by
      intro r hr
      simp only [bind_apply, hp1, obind_ok, onOther_ok hq1, hr]
    constructor
    · intro hno
      obtain ⟨s', h1, h2, h3⟩ := main.1 fun i j hi _ hj => by
        rw [hm.1, ht.1] at hi
        rw [hm.2.1, ht.2.1] at hj
        exact hno i j (by omega) (by omega) (by omega) (by omega)
      have h4 : Shows ⟨s', m.rows, m.cols⟩ (u.overlay t) := h3.congr rfl rfl fun i j hi hj => by
        simp only [Table.overlay, Table.cols_, hm.1, ht.1, hm.2.1, ht.2.1] at hi hj ⊢
        by_cases hc : i < t.rows ∧ j < t.cols
        · rw [if_pos hc, if_pos (by omega)]
        · rw [if_neg hc, if_neg (by omega)]
      exact ⟨_, by rw [copyFrom, if_neg he]; exact onStore_ok (unf _ h1), h4.good h2, h4⟩
    · rintro ⟨i, j, h1, h2, h3, h4, h5⟩
      obtain ⟨s', v, h1, h2, h3, h4⟩ := main.2 ⟨i, j, by rw [hm.1, ht.1]; omega, by omega, by rw [hm.2.1, ht.2.1]; omega, h5⟩
      exact ⟨_, v, by rw [copyFrom, if_neg he]; exact onStore_err (unf _ h1), h3.good h2, h3, h4⟩

theorem copyArrLoop_ok {rows : Nat} (h0 : 0 < rows) :
    ∀ (n col blk : Nat) (a : Arr D I S) {s : St (Val D I S)} {u : Table D I S}, rows ≤ u.rows → col + n ≤ u.cols →
      a.vals.length = rows * n → WF Weak s → Shows ⟨s, u.rows, u.cols⟩ u →
      ∃ s', copyArrLoop u.rows rows col n blk a s = .ok ((), s') ∧ WF Weak s' ∧
        Shows ⟨s', u.rows, u.cols⟩ ⟨u.rows, u.cols, fun i j =>
          if i < rows ∧ col ≤ j ∧ j < col + n then a.vals[rows * (j - col) + i]? else u.at_ i j⟩
  | 0, col, blk, a, s, u, hu, hc, ha, hw, hs => by
    refine ⟨s, rfl, hw, hs.congr rfl rfl fun i j _ _ => ?_⟩
    simp only
    rw [if_neg (by omega)]
  | n + 1, col, blk, a, s, u, hu, hc, ha, hw, hs => by
    have hl : (contents s).length = u.rows * u.cols := hs.2.2.1
    have hroom := col_room hu (show col < u.cols by omega)
    have hcur := wf_len hw
    rw [Nat.mul_succ] at ha
    have htl : (a.take rows).vals.length = rows := by rw [arr_take_vals, List.length_take]; omega
    obtain ⟨pd', hp1, hp2⟩ := Mtv.position_in hw (some (some blk)) (pos := u.rows * col) (by omega)
    obtain ⟨i, s1, h1, h2, -⟩ := setRange_patch hw (some (some pd'.1)) (pos := u.rows * col) (a.take rows).ty (a.take rows).vals
      (by intro h; rw [h] at htl; simp at htl; omega) (by omega)
    have hcl : (cellsOf (a.take rows).ty (a.take rows).vals).length = rows := by
      rw [arr_cells, List.length_map, htl]
    have h3 := shows_col (m := ⟨s, u.rows, u.cols⟩) hs (c := col) (f := fun k => (a.take rows).vals[k]?)
      (by rw [hcl]; exact hu) h2 (arr_get _)
    rw [hcl] at h3
    obtain ⟨s', h4, h5, h6⟩ := copyArrLoop_ok h0 n (col + 1) i (a.drop rows) (s := s1)
      (u := u.putColumn col rows fun k => (a.take rows).vals[k]?) hu (by simp only [Table.putColumn]; omega)
      (by rw [arr_drop_vals, List.length_drop]; omega) h2.wf h3
    refine ⟨s', ?_, h5, h6.congr rfl rfl fun i j hi hj => ?_⟩
    · rw [copyArrLoop]
      rw [arr_take_ty] at h1
      simp only [bind_apply, hp1, obind_ok, h1]
      exact h4
    · simp only [Table.putColumn, arr_take_vals, arr_drop_vals, List.getElem?_drop]
      by_cases hc1 : j = col ∧ i < rows
      · rw [if_pos (by omega), if_neg (by omega), if_pos hc1, hc1.1, List.getElem?_take_of_lt hc1.2]
        simp
      · by_cases hc2 : i < rows ∧ col + 1 ≤ j ∧ j < col + 1 + n
        · rw [if_pos (by omega), if_pos hc2]
          congr 1
          obtain ⟨d, rfl⟩ : ∃ d, j = col + 1 + d := ⟨j - col - 1, by omega⟩
          rw [show col + 1 + d - col = d + 1 by omega, show col + 1 + d - (col + 1) = d by omega, Nat.mul_succ]
          omega
        · rw [if_neg (by omega), if_neg hc2, if_neg hc1]

theorem copyArr_ok {m : Mtx D I S} {u : Table D I S} (hg : Good m) (hs : Shows m u) {rows cols : Nat} (a : Arr D I S)
    (ha : a.vals.length = rows * cols) (hr : rows ≤ u.rows) (hc : cols ≤ u.cols) :
    ∃ m', copyArr m rows cols a = .ok () m' ∧ Good m' ∧ Shows m' (u.overlay (arrTable rows cols a)) := by
  by_cases he : a.vals.length = 0 ∨ empty m = true
  · refine ⟨m, by rw [copyArr, if_pos he], hg, hs.congr rfl rfl fun i j hi hj => ?_⟩
    refine if_neg ?_
    rintro ⟨h1, h2⟩
    simp only [arrTable] at h1 h2
    have : rows * cols = 0 ∨ u.rows * u.cols = 0 := he.imp (fun h => ha ▸ h) (empty_iff hg hs).1
    rcases this with h | h <;> rcases Nat.mul_eq_zero.1 h with h | h <;> omega
  · have h0 : 0 < rows := by
      rcases Nat.eq_zero_or_pos rows with h | h
      · subst h; exact (he (Or.inl (by simpa using ha))).elim
      · exact h
    have hzu : 0 < u.rows * u.cols := Nat.pos_of_ne_zero fun h => he (Or.inr ((empty_iff hg hs).2 h))
    have hcu := hg.cur
    rw [hs.1, hs.2.1] at hcu
    obtain ⟨pd, hp1, -⟩ := Mtv.position_in hg.wf none (pos := 0) (by omega)
    obtain ⟨s', h1, h2, h3⟩ := copyArrLoop_ok h0 cols 0 pd.1 a (s := m.store) (u := u) hr (by omega) ha hg.wf
      (by rw [← hs.1, ← hs.2.1]; exact hs)
    rw [← hs.1, ← hs.2.1] at h3
    have h4 : Shows ⟨s', m.rows, m.cols⟩ (u.overlay (arrTable rows cols a)) := h3.congr hs.1.symm hs.2.1.symm fun i j hi hj => by
      by_cases hc : i < rows ∧ j < cols
      · refine (if_pos hc).trans ?_
        simp only
        rw [if_pos (by omega)]; rfl
      · refine (if_neg hc).trans ?_
        simp only
        rw [if_neg (by omega)]
    refine ⟨_, ?_, h4.good h2, h4⟩
    rw [copyArr, if_neg he, if_neg (by simpa using ha), if_neg (by rw [hs.1, hs.2.1]; omega)]
    refine onStore_ok ?_
    simp only [bind_apply, hp1, obind_ok]
    rw [hs.1]; exact h1

theorem clear_ok {m : Mtx D I S} (hg : Good m) : ∃ m', clear m = .ok () m' ∧ Good m' ∧ Shows m' (Table.const 0 0 none) := by
  have := call_wf hg.wf .clear ⟨fun hn => (hn rfl).elim, trivial⟩
  simp only [Mtv.Call.spec] at this
  obtain ⟨r, s', h1, h2, h3, -⟩ := this
  obtain ⟨i, h4, -⟩ := Mtv.unwrap (f := fun _ => .unit) h1
  have hs : Shows (⟨s', 0, 0⟩ : Mtx D I S) (Table.const 0 0 none) :=
    ⟨rfl, rfl, by simp [h3], fun i j hi hj => by simp [Table.const] at hi⟩
  exact ⟨_, by simp [clear, h4], hs.good h2, hs⟩

theorem adopt_ok {m temp : Mtx D I S} {t u : Table D I S} (hg : Good m) (hs : Shows m t) (hgt : Good temp) (hst : Shows temp u) :
    ((∀ i j, i < u.rows → j < u.cols → i < t.rows → j < t.cols → ¬ (t.at_ i j).isInt) →
      ∃ m', adopt m temp = .ok () m' ∧ Good m' ∧ Shows m' (u.overlay t)) ∧
    ((∃ i j, i < u.rows ∧ j < u.cols ∧ i < t.rows ∧ j < t.cols ∧ (t.at_ i j).isInt) → adopt m temp = .err .general m) := by
  have := copyFrom_ok hgt hst hg hs
  constructor
  · intro h
    obtain ⟨m', h1, h2, h3⟩ := this.1 h
    exact ⟨m', by simp [adopt, h1], h2, h3⟩
  · intro h
    obtain ⟨m', v, h1, -⟩ := this.2 h
    simp [adopt, h1]

theorem resize_ok {m : Mtx D I S} {t : Table D I S} (hg : Good m) (hs : Shows m t) (rows cols : Nat) :
    ((rows = 0 ∨ cols = 0) → ∃ m', resize m rows cols = .ok () m' ∧ Good m' ∧ Shows m' (Table.const 0 0 none)) ∧
    (rows ≠ 0 → cols ≠ 0 → (∀ i j, i < rows → j < cols → i < t.rows → j < t.cols → ¬ (t.at_ i j).isInt) →
      ∃ m', resize m rows cols = .ok () m' ∧ Good m' ∧ Shows m' ((Table.const rows cols none).overlay t)) ∧
    (rows ≠ 0 → cols ≠ 0 → (∃ i j, i < rows ∧ j < cols ∧ i < t.rows ∧ j < t.cols ∧ (t.at_ i j).isInt) →
      resize m rows cols = .err .general m) := by
  obtain ⟨g1, g2⟩ := good_sized (D := D) (I := I) (S := S) rows cols
  have main := adopt_ok hg hs g1 g2
  refine ⟨fun h => ?_, fun h1 h2 h => ?_, fun h1 h2 h => ?_⟩
  · rw [resize, if_pos h]; exact clear_ok hg
  · rw [resize, if_neg (by omega)]; exact main.1 h
  · rw [resize, if_neg (by omega)]; exact main.2 h

theorem resizeFill_ok {m : Mtx D I S} {t : Table D I S} (hg : Good m) (hs : Shows m t) (rows cols : Nat) (v : Val D I S) :
    ((rows = 0 ∨ cols = 0) → ∃ m', resizeFill m rows cols v = .ok () m' ∧ Good m' ∧ Shows m' (Table.const 0 0 none)) ∧
    (rows ≠ 0 → cols ≠ 0 → (∀ i j, i < rows → j < cols → i < t.rows → j < t.cols → ¬ (t.at_ i j).isInt) →
      ∃ m', resizeFill m rows cols v = .ok () m' ∧ Good m' ∧ Shows m' ((Table.const rows cols (some v)).overlay t)) ∧
    (rows ≠ 0 → cols ≠ 0 → (∃ i j, i < rows ∧ j < cols ∧ i < t.rows ∧ j < t.cols ∧ (t.at_ i j).isInt) →
      resizeFill m rows cols v = .err .general m) := by
  obtain ⟨x, g0, g1, g2⟩ := good_fill rows cols v
  have main := adopt_ok hg hs g1 g2
  refine ⟨fun h => ?_, fun h1 h2 h => ?_, fun h1 h2 h => ?_⟩
  · rw [resizeFill, if_pos h]; exact clear_ok hg
  · rw [resizeFill, if_neg (by omega), g0]; exact main.1 h
  · rw [resizeFill, if_neg (by omega), g0]; exact main.2 h

/-! ### Every reached matrix -/

theorem no_int_or {t : Table D I S} (P : Nat → Nat → Prop) :
    (∀ i j, P i j → ¬ (t.at_ i j).isInt) ∨ (∃ i j, P i j ∧ (t.at_ i j).isInt) := by
  by_cases h : ∃ i j, P i j ∧ (t.at_ i j).isInt
  · exact Or.inr h
  · exact Or.inl fun i j hp hi => h ⟨i, j, hp, hi⟩

theorem good_state {m : Mtx D I S} {r : MRes D I S Unit} (h : ∃ m', r = .ok () m' ∧ Good m') {m' : Mtx D I S}
    (hm : r.state = some m') : Good m' := by
  obtain ⟨x, h1, h2⟩ := h
  rw [h1] at hm
  cases hm; exact h2

theorem run_good {m m' : Mtx D I S} (hg : Good m) (c : MCall D I S) (h : c.run m = some m') : Good m' := by
  have hs := hg.shows
  cases c with
  | set r c v =>
    obtain ⟨x, h1, h2⟩ := set_good hg r c v
    have h : (Mtm.set m r c v).state = some m' := h
    rw [h1] at h; cases h; exact h2
  | setAt p v => exact (setAt_tame hg p v).state h
  | setRange r c a => exact (tame_setRange hg none _ a).drop.state h
  | setRangeAt p a => exact (setRangeAt_tame hg p a).state h
  | setEmpty r c => exact (tame_setEmpty hg none (Or.inl rfl) _ _).drop.state h
  | setEmptyLen r c n =>
    have h : (Mtm.setEmptyLen m r c n).state = some m' := h
    unfold Mtm.setEmptyLen at h
    split at h
    · cases h; exact hg
    · exact (tame_setEmpty hg none (Or.inl rfl) _ _).drop.state h
  | setEmptyAt p => exact (setEmptyAt_tame hg p).state h
  | setColumnEmpty c => exact (tame_setEmpty hg none (Or.inl rfl) _ _).drop.state h
  | setRowEmpty r => exact (setRowEmpty_tame m.rows r m.cols 0 hg).state h
  | setColumn c a =>
    have h : (Mtm.setColumn m c a).state = some m' := h
    unfold Mtm.setColumn at h
    split at h
    · exact (tame_setRange hg none _ a).drop.state h
    · exact (tame_setRange hg none _ (a.take m.rows)).drop.state h
  | transpose =>
    have h : (Mtm.transpose m).state = some m' := h
    have main := transpose_ok hg hs
    rcases no_int_or (t := tableOf m) (fun i j => i < m.rows ∧ j < m.cols) with hn | ⟨i, j, ⟨h1, h2⟩, h3⟩
    · obtain ⟨x, h1, h2, -⟩ := main.1 fun i j hi hj => hn i j ⟨hi, hj⟩
      exact good_state (m := m) ⟨x, h1, h2⟩ h
    · rw [main.2 ⟨i, j, h1, h2, h3⟩] at h
      cases h; exact hg
  | copyArr r c a =>
    have h : (Mtm.copyArr m r c a).state = some m' := h
    by_cases hok : a.vals.length = r * c ∧ r ≤ m.rows ∧ c ≤ m.cols
    · obtain ⟨x, h1, h2, -⟩ := copyArr_ok hg hs a hok.1 hok.2.1 hok.2.2
      exact good_state (m := m) ⟨x, h1, h2⟩ h
    · unfold Mtm.copyArr at h
      split at h
      · cases h; exact hg
      · split at h
        · cases h; exact hg
        · split at h
          · cases h; exact hg
          · exact (hok (by omega)).elim
  | resize r c =>
    have h : (Mtm.resize m r c).state = some m' := h
    have main := resize_ok hg hs r c
    by_cases h0 : r = 0 ∨ c = 0
    · obtain ⟨x, h1, h2, -⟩ := main.1 h0
      exact good_state (m := m) ⟨x, h1, h2⟩ h
    · rcases no_int_or (t := tableOf m) (fun i j => i < r ∧ j < c ∧ i < m.rows ∧ j < m.cols) with hn | ⟨i, j, hh, h3⟩
      · obtain ⟨x, h1, h2, -⟩ := main.2.1 (by omega) (by omega) fun i j a b c d => hn i j ⟨a, b, c, d⟩
        exact good_state (m := m) ⟨x, h1, h2⟩ h
      · rw [main.2.2 (by omega) (by omega) ⟨i, j, hh.1, hh.2.1, hh.2.2.1, hh.2.2.2, h3⟩] at h
        cases h; exact hg
  | resizeFill r c v =>
    have h : (Mtm.resizeFill m r c v).state = some m' := h
    have main := resizeFill_ok hg hs r c v
    by_cases h0 : r = 0 ∨ c = 0
    · obtain ⟨x, h1, h2, -⟩ := main.1 h0
      exact good_state (m := m) ⟨x, h1, h2⟩ h
    · rcases no_int_or (t := tableOf m) (fun i j => i < r ∧ j < c ∧ i < m.rows ∧ j < m.cols) with hn | ⟨i, j, hh, h3⟩
      · obtain ⟨x, h1, h2, -⟩ := main.2.1 (by omega) (by omega) fun i j a b c d => hn i j ⟨a, b, c, d⟩
        exact good_state (m := m) ⟨x, h1, h2⟩ h
      · rw [main.2.2 (by omega) (by omega) ⟨i, j, hh.1, hh.2.1, hh.2.2.1, hh.2.2.2, h3⟩] at h
        cases h; exact hg
  | clear =>
    obtain ⟨x, h1, h2, -⟩ := clear_ok hg
    exact good_state (m := m) ⟨x, h1, h2⟩ h

theorem copy_good {m src m' : Mtx D I S} (hm : Good m) (hg : Good src) (h : (copyFrom src m).state = some m') : Good m' := by
  have main := copyFrom_ok hm hm.shows hg hg.shows
  rcases no_int_or (t := tableOf src) (fun i j => i < m.rows ∧ j < m.cols ∧ i < src.rows ∧ j < src.cols) with hn | ⟨i, j, hh, h3⟩
  · obtain ⟨x, h1, h2, -⟩ := main.1 fun i j a b c d => hn i j ⟨a, b, c, d⟩
    exact good_state (m := m) ⟨x, h1, h2⟩ h
  · obtain ⟨x, v, h1, h2, -⟩ := main.2 ⟨i, j, hh.1, hh.2.1, hh.2.2.1, hh.2.2.2, h3⟩
    rw [h1] at h
    cases h; exact h2

theorem reach_good {m : Mtx D I S} (h : Reach m) : Good m := by
  induction h with
  | default => exact good_mk0.1
  | sized r c => exact (good_sized r c).1
  | fill r c v h =>
    obtain ⟨x, h1, h2, -⟩ := good_fill r c v
    rw [h] at h1; cases h1; exact h2
  | arr r c a h =>
    have := good_arr r c a
    by_cases h0 : r * c = 0 ∨ r * c = a.vals.length
    · obtain ⟨x, h1, h2, -⟩ := this.1 h0
      rw [h] at h1; cases h1; exact h2
    · rw [this.2 h0] at h; cases h
  | call c _ h ih => exact run_good ih c h
  | copy _ _ h ih1 ih2 => exact copy_good ih1 ih2 h
  | copied _ ih => exact copyOf_good ih

end Mdds.Mtm
