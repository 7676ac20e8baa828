import Verif.Mtm.Copy

/-! # multi_type_matrix: walking -/

namespace Mdds.Mtm
open Mdds.Mtv (St M WF Weak weak_ne weak_all contents contents_eq pointsTo Designates cellsOf Cell At Ty Blk EB
  bind_apply obind_ok getB_ap getB nBlocks_ap nBlocks curSize_ap total throw_ advancePosition)

set_option linter.unusedSectionVars false
set_option linter.unusedSimpArgs false

variable {D I S : Type} [DecidableEq D] [DecidableEq I] [DecidableEq S]

/-- What a function object may rely on: the piece is not empty, holds as many elements as it says
and all of them have the type it says. -/
def Node.Sound (n : Node D I S) : Prop :=
  0 < n.size ∧ n.elems.length = n.size ∧ ∀ e ∈ n.elems, Option.map Val.ty e = n.ty

/-- A store all of whose cells hold values of their type. -/
def TypedS (s : St (Val D I S)) : Prop := ∀ (q : Nat) c, (contents s)[q]? = some c → ∃ e, c = cellOf e

theorem cells_inj : ∀ {l l' : List (Elem D I S)}, l.map cellOf = l'.map cellOf → l = l'
  | [], [], _ => rfl
  | [], _ :: _, h => by simp at h
  | _ :: _, [], h => by simp at h
  | a :: l, b :: l', h => by
    simp only [List.map_cons, List.cons.injEq] at h
    rw [cellOf_inj h.1, cells_inj h.2]

theorem node_ok {s : St (Val D I S)} (h : WF Weak s) (ht : TypedS s) {i : Nat} {b : Blk (Val D I S)} (hb : s.blocks[i]? = some b)
    {off n : Nat} (hn : off + n ≤ b.size) (h0 : 0 < n) :
    (⟨b.ty, off, n, b.data⟩ : Node D I S).Sound ∧
    (⟨b.ty, off, n, b.data⟩ : Node D I S).elems.map cellOf = ((contents s).drop (b.pos + off)).take n := by
  have hsec := section_eq h hb hn
  have hlen := section_length h hb hn
  rw [hsec]
  unfold sectionCells at hlen hsec ⊢
  unfold Node.Sound Node.elems Blk.ty
  cases hd : b.data with
  | none => simp [cellOf, h0]
  | some d =>
    simp only [hd] at hlen hsec ⊢
    have htyp : ∀ v ∈ (d.vals.drop off).take n, v.ty = d.ty := by
      intro v hv
      have : some (d.ty, v) ∈ ((contents s).drop (b.pos + off)).take n := by
        rw [hsec]; exact List.mem_map.2 ⟨v, hv, rfl⟩
      obtain ⟨q, hq⟩ := List.mem_iff_getElem?.1 (List.mem_of_mem_drop (List.mem_of_mem_take this))
      obtain ⟨e, he⟩ := ht q _ hq
      cases e with
      | none => simp [cellOf] at he
      | some w => simp [cellOf] at he; rw [he.2, he.1]
    refine ⟨⟨h0, by simpa [cellsOf] using hlen, fun e he => ?_⟩, ?_⟩
    · obtain ⟨v, hv, rfl⟩ := List.mem_map.1 he
      simp [htyp v hv]
    · rw [List.map_map]
      unfold cellsOf
      apply List.map_congr_left
      intro v hv
      simp [cellOf, htyp v hv]

theorem take_split {α : Type} (l : List α) (q k rem : Nat) (hk : k ≤ rem) :
    (l.drop q).take rem = (l.drop q).take k ++ (l.drop (q + k)).take (rem - k) := by
  rw [← List.drop_drop, ← List.take_add]
  congr 1; omega

theorem left_ok {s : St (Val D I S)} {p : Nat × Nat} {b : Blk (Val D I S)} (hb : s.blocks[p.1]? = some b) (hp : p.2 < b.size) :
    left p s = .ok (b.size - p.2, s) := by
  simp only [left, bind_apply, getB_ap, hb, obind_ok, if_neg (Nat.not_lt.2 (Nat.le_of_lt hp))]; rfl

theorem nodeAt_ok {s : St (Val D I S)} {p : Nat × Nat} {b : Blk (Val D I S)} (hb : s.blocks[p.1]? = some b) (n : Nat) :
    nodeAt p n s = .ok (⟨b.ty, p.2, n, b.data⟩, s) := by
  simp only [nodeAt, bind_apply, getB_ap, hb, obind_ok]; rfl

theorem walkSections_ok {s : St (Val D I S)} (h : WF Weak s) (ht : TypedS s) :
    ∀ (fuel : Nat) {p : Nat × Nat} {q rem : Nat}, Designates s p q → 0 < rem → q + rem ≤ (contents s).length →
      s.blocks.length < fuel + p.1 →
      ∃ ns e, walkSections fuel p rem s = .ok ((ns, e), s) ∧ (∀ n ∈ ns, n.Sound) ∧
        (ns.flatMap Node.elems).map cellOf = ((contents s).drop q).take rem
  | 0, p, q, rem, hd, h0, hq, hf => by
    exfalso
    have hl := wf_len h
    obtain ⟨b, hb, -, -⟩ := designates_block hd (by omega)
    have := (List.getElem?_eq_some_iff.1 hb).1
    omega
  | fuel + 1, p, q, rem, hd, h0, hq, hf => by
    have hl := wf_len h
    obtain ⟨b, hb, hoff, hpos⟩ := designates_block hd (by omega)
    have hbl := (List.getElem?_eq_some_iff.1 hb).1
    obtain ⟨k, hk⟩ : ∃ k, k = min (b.size - p.2) rem := ⟨_, rfl⟩
    obtain ⟨n1, n2⟩ := node_ok h ht hb (off := p.2) (n := k) (by omega) (by omega)
    rw [walkSections]
    simp only [bind_apply, left_ok hb hoff, obind_ok, nodeAt_ok hb, ← hk]
    by_cases hz : rem - k = 0
    · rw [if_pos hz]
      have : k = rem := by omega
      refine ⟨_, _, rfl, ?_, ?_⟩
      · intro n hn; rw [List.mem_singleton.1 hn]; exact n1
      · simp only [List.flatMap_cons, List.flatMap_nil, List.append_nil]
        rw [n2, this, hpos]
    · rw [if_neg hz]
      have hfin : q + k = b.pos + b.size := by omega
      obtain ⟨ns, e, h1, h2, h3⟩ := walkSections_ok h ht fuel (p := (p.1 + 1, 0)) (q := q + k) (rem := rem - k)
        (by rw [hfin]; exact next_block h hb) (by omega) (by omega) (by simp only; omega)
      refine ⟨_, _, by simp only [bind_apply, h1, obind_ok]; rfl, ?_, ?_⟩
      · intro n hn
        rcases List.mem_cons.1 hn with rfl | hn
        · exact n1
        · exact h2 n hn
      · rw [List.flatMap_cons, List.map_append, n2, h3, take_split _ q k rem (by omega), hpos]

/-- The cells of a rectangle, column by column. -/
theorem region_cols {m : Mtx D I S} {t : Table D I S} (hs : Shows m t) {row rows c : Nat} (hc : c < t.cols) (hr : row + rows ≤ t.rows) :
    ((contents m.store).drop (t.rows * c + row)).take rows = ((List.range' row rows).map fun i => t.at_ i c).map cellOf := by
  have hl : (contents m.store).length = t.rows * t.cols := by rw [hs.2.2.1, hs.1, hs.2.1]
  have hroom := col_room (n := row + rows) hr hc
  apply List.ext_getElem?
  intro k
  by_cases hk : k < rows
  · rw [List.getElem?_take_of_lt hk, List.getElem?_drop, Nat.add_assoc, hs.2.2.2 (row + k) c (by omega) hc]
    simp [List.getElem?_range', hk]
  · rw [List.getElem?_eq_none (by simp; omega), List.getElem?_eq_none (by simp; omega)]

theorem walkCols_ok {m : Mtx D I S} {t : Table D I S} (hg : Good m) (hs : Shows m t) {row rows : Nat} (h0 : 0 < rows)
    (hr : row + rows ≤ t.rows) :
    ∀ (n col : Nat) (p : Nat × Nat), col + n ≤ t.cols →
      ∃ ns, walkCols m.rows row rows col n p m.store = .ok (ns, m.store) ∧ (∀ n ∈ ns, n.Sound) ∧
        ns.flatMap Node.elems = (List.range' col n).flatMap fun j => (List.range' row rows).map fun i => t.at_ i j
  | 0, col, p, _ => ⟨[], rfl, by simp, by simp⟩
  | n + 1, col, p, hc => by
    have hl : (contents m.store).length = t.rows * t.cols := by rw [hs.2.2.1, hs.1, hs.2.1]
    have hroom := col_room hr (show col < t.cols by omega)
    have hcur := wf_len hg.wf
    obtain ⟨p', hp1, hp2⟩ := Mtv.position_in hg.wf (some (some p.1)) (pos := m.rows * col + row) (by rw [hs.1]; omega)
    obtain ⟨ns, e, h1, h2, h3⟩ := walkSections_ok hg.wf hg.typed (m.store.blocks.length + 1) (rem := rows) hp2 h0
      (by rw [hs.1]; omega) (by omega)
    obtain ⟨ns', h4, h5, h6⟩ := walkCols_ok hg hs h0 hr n (col + 1) e (by omega)
    refine ⟨ns ++ ns', ?_, ?_, ?_⟩
    · simp only [walkCols, bind_apply, hp1, obind_ok, nBlocks_ap, h1, h4]; rfl
    · intro x hx
      rcases List.mem_append.1 hx with hx | hx
      · exact h2 x hx
      · exact h5 x hx
    · rw [hs.1, region_cols hs (show col < t.cols by omega) hr] at h3
      rw [List.flatMap_append, cells_inj h3, h6, List.range'_succ, List.flatMap_cons]

theorem walkRange_ok {m : Mtx D I S} {t : Table D I S} (hg : Good m) (hs : Shows m t) {r1 c1 r2 c2 : Nat} (h1 : r1 ≤ r2) (h2 : c1 ≤ c2)
    (h3 : r2 < t.rows) (h4 : c2 < t.cols) :
    ∃ ns, walkRange m r1 c1 r2 c2 = .ok ns m ∧ (∀ n ∈ ns, n.Sound) ∧ ns.flatMap Node.elems = t.region r1 c1 r2 c2 := by
  obtain ⟨p, hp, -⟩ := Mtv.position_in hg.wf none (pos := 0) (Nat.zero_le _)
  obtain ⟨ns, a, b, c⟩ := walkCols_ok hg hs (row := r1) (rows := r2 - r1 + 1) (by omega) (by omega) (c2 - c1 + 1) c1 p (by omega)
  refine ⟨ns, ?_, b, c⟩
  rw [walkRange, if_neg (by omega), if_neg (by rw [hs.1, hs.2.1]; omega)]
  have := onStore_ok (m := m) (x := do
    let p ← Mtv.position none 0
    walkCols m.rows r1 (r2 - r1 + 1) c1 (c2 - c1 + 1) p) (b := ns) (s := m.store) (by simp only [bind_apply, hp, obind_ok, a])
  exact this

theorem all_cells {m : Mtx D I S} {t : Table D I S} (hs : Shows m t) : contents m.store = t.all.map cellOf := by
  have hl : (contents m.store).length = t.rows * t.cols := by rw [hs.2.2.1, hs.1, hs.2.1]
  have main : ∀ n, n ≤ t.cols → (contents m.store).take (t.rows * n) =
      ((List.range n).flatMap fun j => (List.range t.rows).map fun i => t.at_ i j).map cellOf := by
    intro n
    induction n with
    | zero => intro _; simp
    | succ n ih =>
      intro hn
      rw [List.range_succ, List.flatMap_append, List.map_append, ← ih (by omega), Nat.mul_succ, List.take_add]
      congr 1
      have := region_cols hs (row := 0) (rows := t.rows) (c := n) (by omega) (by omega)
      rw [Nat.add_zero] at this
      rw [this, List.range_eq_range']
      simp
  have := main t.cols (Nat.le_refl _)
  rw [← hl, List.take_length] at this
  exact this

theorem walk_ok {m : Mtx D I S} (hg : Good m) :
    (∀ n ∈ walk m, n.Sound) ∧ ((walk m).flatMap Node.elems).map cellOf = contents m.store := by
  have blk : ∀ b ∈ m.store.blocks, (⟨b.ty, 0, b.size, b.data⟩ : Node D I S).Sound ∧
      (⟨b.ty, 0, b.size, b.data⟩ : Node D I S).elems.map cellOf = b.cells := by
    intro b hb
    obtain ⟨i, hi⟩ := List.mem_iff_getElem?.1 hb
    have hlt : i < m.store.blocks.length := (List.getElem?_eq_some_iff.1 hi).1
    have hbe : m.store.blocks[i] = b := (List.getElem?_eq_some_iff.1 hi).2
    have e : m.store.blocks = m.store.blocks.take i ++ b :: m.store.blocks.drop (i + 1) := by rw [← hbe]; simp
    have hcl := Mtv.cells_length_of_ok (Mtv.ok_of_split hg.wf e).1
    obtain ⟨a1, a2⟩ := node_ok hg.wf hg.typed hi (off := 0) (n := b.size) (by omega) (Mtv.block_facts hg.wf hi).1
    refine ⟨a1, a2.trans ?_⟩
    rw [section_eq hg.wf hi (by omega)]
    unfold sectionCells Blk.cells
    unfold Blk.cells at hcl
    cases hd : b.data with
    | none => rfl
    | some d =>
      simp only [hd, List.length_map] at hcl
      simp only [List.drop_zero, cellsOf]
      rw [List.take_of_length_le (by omega)]
  constructor
  · intro n hn
    obtain ⟨b, hb, rfl⟩ := List.mem_map.1 hn
    exact (blk b hb).1
  · rw [contents_eq]
    unfold Mtv.cells walk
    rw [List.flatMap_map, List.map_flatMap]
    have : ∀ l : List (Blk (Val D I S)), (∀ b ∈ l, b ∈ m.store.blocks) →
        (l.flatMap fun b => (⟨b.ty, 0, b.size, b.data⟩ : Node D I S).elems.map cellOf) = l.flatMap Blk.cells := by
      intro l
      induction l with
      | nil => intro _; rfl
      | cons b l ih =>
        intro h
        rw [List.flatMap_cons, List.flatMap_cons, (blk b (h b (by simp))).2, ih fun c hc => h c (by simp [hc])]
    exact this _ fun _ h => h

/-- A walk over two stores from the given positions. -/
theorem pair_step {s t : St (Val D I S)} (h : WF Weak s) (ht : TypedS s) (h' : WF Weak t) (ht' : TypedS t)
    {p1 p2 : Nat × Nat} {q1 q2 rem : Nat} (hd1 : Designates s p1 q1) (hd2 : Designates t p2 q2) (h0 : 0 < rem)
    (hq1 : q1 + rem ≤ (contents s).length) (hq2 : q2 + rem ≤ (contents t).length) :
    ∃ l1 l2, left p1 s = .ok (l1, s) ∧ left p2 t = .ok (l2, t) ∧ 0 < l1 ∧ 0 < l2 ∧
      q1 + l1 ≤ (contents s).length ∧ q2 + l2 ≤ (contents t).length ∧
      ∀ k, 0 < k → k ≤ min (min l1 l2) rem →
        ∃ n1 n2 p1' p2', nodeAt p1 k s = .ok (n1, s) ∧ nodeAt p2 k t = .ok (n2, t) ∧
          advancePosition p1 (k : Nat) s = .ok (p1', s) ∧ advancePosition p2 (k : Nat) t = .ok (p2', t) ∧
          Designates s p1' (q1 + k) ∧ Designates t p2' (q2 + k) ∧ n1.Sound ∧ n2.Sound ∧ n1.size = n2.size ∧
          n1.elems.map cellOf = ((contents s).drop q1).take k ∧ n2.elems.map cellOf = ((contents t).drop q2).take k := by
  have hl := wf_len h
  have hl' := wf_len h'
  obtain ⟨b1, hb1, ho1, hp1⟩ := designates_block hd1 (by omega)
  obtain ⟨b2, hb2, ho2, hp2⟩ := designates_block hd2 (by omega)
  have f1 := (Mtv.block_facts h hb1).2.1
  have f2 := (Mtv.block_facts h' hb2).2.1
  refine ⟨_, _, left_ok hb1 ho1, left_ok hb2 ho2, by omega, by omega, by omega, by omega, fun k hk0 hk => ?_⟩
  obtain ⟨a1, a2⟩ := node_ok h ht hb1 (off := p1.2) (n := k) (by omega) hk0
  obtain ⟨c1, c2⟩ := node_ok h' ht' hb2 (off := p2.2) (n := k) (by omega) hk0
  obtain ⟨p1', d1, e1⟩ := Mtv.advance_ok h hd1 (k : Nat) (by omega) (by omega)
  obtain ⟨p2', d2, e2⟩ := Mtv.advance_ok h' hd2 (k : Nat) (by omega) (by omega)
  rw [show ((q1 : Int) + (k : Nat)).toNat = q1 + k by omega] at e1
  rw [show ((q2 : Int) + (k : Nat)).toNat = q2 + k by omega] at e2
  exact ⟨_, _, p1', p2', nodeAt_ok hb1 k, nodeAt_ok hb2 k, d1, d2, e1, e2, a1, c1, rfl, by rw [a2, hp1], by rw [c2, hp2]⟩

/-- Pairs of pieces of two walks. -/
def PairsOk (ns : List (Node D I S × Node D I S)) : Prop := ∀ n ∈ ns, n.1.Sound ∧ n.2.Sound ∧ n.1.size = n.2.size

theorem walkBoth_ok {s t : St (Val D I S)} (h : WF Weak s) (ht : TypedS s) (h' : WF Weak t) (ht' : TypedS t)
    (hlen : (contents s).length = (contents t).length) :
    ∀ (fuel : Nat) {p1 p2 : Nat × Nat} {q rem : Nat}, Designates s p1 q → Designates t p2 q → q + rem = (contents s).length →
      rem < fuel →
      ∃ ns, walkBoth t fuel p1 p2 rem s = .ok (ns, s) ∧ PairsOk ns ∧
        (ns.flatMap fun n => n.1.elems).map cellOf = ((contents s).drop q).take rem ∧
        (ns.flatMap fun n => n.2.elems).map cellOf = ((contents t).drop q).take rem
  | 0, p1, p2, q, rem, _, _, _, hf => by omega
  | fuel + 1, p1, p2, q, rem, hd1, hd2, hq, hf => by
    rw [walkBoth]
    by_cases h0 : rem = 0
    · rw [if_pos h0]
      exact ⟨[], rfl, by simp [PairsOk], by simp [h0], by simp [h0]⟩
    · rw [if_neg h0]
      obtain ⟨l1, l2, e1, e2, g1, g2, g3, g4, step⟩ := pair_step h ht h' ht' hd1 hd2 (rem := rem) (by omega) (by omega) (by omega)
      obtain ⟨n1, n2, p1', p2', b1, b2, b3, b4, b5, b6, b7, b8, b9, b10, b11⟩ := step (min l1 l2) (by omega) (by omega)
      obtain ⟨ns, c1, c2, c3, c4⟩ := walkBoth_ok h ht h' ht' hlen fuel b5 b6 (rem := rem - min l1 l2) (by omega) (by omega)
      refine ⟨(n1, n2) :: ns, ?_, ?_, ?_, ?_⟩
      · simp only [bind_apply, e1, onOther_ok e2, obind_ok, b1, onOther_ok b2, b3, onOther_ok b4, if_neg (show ¬ rem < min l1 l2 by omega), c1]
        rfl
      · intro x hx
        rcases List.mem_cons.1 hx with rfl | hx
        · exact ⟨b7, b8, b9⟩
        · exact c2 x hx
      · rw [List.flatMap_cons, List.map_append, b10, c3, take_split _ q (min l1 l2) rem (by omega)]
      · rw [List.flatMap_cons, List.map_append, b11, c4, take_split _ q (min l1 l2) rem (by omega)]

theorem walkBothSections_ok {s t : St (Val D I S)} (h : WF Weak s) (ht : TypedS s) (h' : WF Weak t) (ht' : TypedS t) :
    ∀ (fuel : Nat) {p1 p2 : Nat × Nat} {q1 q2 rem : Nat}, Designates s p1 q1 → Designates t p2 q2 → 0 < rem →
      q1 + rem ≤ (contents s).length → q2 + rem ≤ (contents t).length → rem < fuel →
      ∃ ns e1 e2, walkBothSections t fuel p1 p2 rem s = .ok ((ns, e1, e2), s) ∧ PairsOk ns ∧
        (ns.flatMap fun n => n.1.elems).map cellOf = ((contents s).drop q1).take rem ∧
        (ns.flatMap fun n => n.2.elems).map cellOf = ((contents t).drop q2).take rem
  | 0, p1, p2, q1, q2, rem, _, _, _, _, _, hf => by omega
  | fuel + 1, p1, p2, q1, q2, rem, hd1, hd2, h0, hq1, hq2, hf => by
    rw [walkBothSections]
    obtain ⟨l1, l2, e1, e2, g1, g2, g3, g4, step⟩ := pair_step h ht h' ht' hd1 hd2 (rem := rem) h0 hq1 hq2
    obtain ⟨k, hk⟩ : ∃ k, k = min (min l1 l2) rem := ⟨_, rfl⟩
    obtain ⟨n1, n2, p1', p2', b1, b2, b3, b4, b5, b6, b7, b8, b9, b10, b11⟩ := step k (by omega) (by omega)
    simp only [bind_apply, e1, onOther_ok e2, obind_ok, ← hk, b1, onOther_ok b2, b3, onOther_ok b4]
    by_cases hz : rem - k = 0
    · rw [if_pos hz]
      have : k = rem := by omega
      refine ⟨_, _, _, rfl, ?_, ?_, ?_⟩
      · intro x hx; rw [List.mem_singleton.1 hx]; exact ⟨b7, b8, b9⟩
      · simp only [List.flatMap_cons, List.flatMap_nil, List.append_nil]; rw [b10, this]
      · simp only [List.flatMap_cons, List.flatMap_nil, List.append_nil]; rw [b11, this]
    · rw [if_neg hz]
      obtain ⟨ns, x1, x2, c1, c2, c3, c4⟩ := walkBothSections_ok h ht h' ht' fuel b5 b6 (rem := rem - k) (by omega) (by omega)
        (by omega) (by omega)
      refine ⟨(n1, n2) :: ns, x1, x2, ?_, ?_, ?_, ?_⟩
      · simp only [bind_apply, c1, obind_ok]; rfl
      · intro x hx
        rcases List.mem_cons.1 hx with rfl | hx
        · exact ⟨b7, b8, b9⟩
        · exact c2 x hx
      · rw [List.flatMap_cons, List.map_append, b10, c3, take_split _ q1 k rem (by omega)]
      · rw [List.flatMap_cons, List.map_append, b11, c4, take_split _ q2 k rem (by omega)]

theorem walkWith_ok {m r : Mtx D I S} (hg : Good m) (hg' : Good r)
    (hr : m.rows = r.rows) (hc : m.cols = r.cols) :
    ∃ ns, walkWith m r = .ok ns m ∧ PairsOk ns ∧
      (ns.flatMap fun n => n.1.elems).map cellOf = contents m.store ∧
      (ns.flatMap fun n => n.2.elems).map cellOf = contents r.store := by
  have hcur := wf_len hg.wf
  have hlen : (contents m.store).length = (contents r.store).length := by rw [hg.len, hg'.len, hr, hc]
  unfold walkWith
  rw [if_neg (by omega)]
  by_cases h0 : m.store.cur = 0
  · rw [if_pos h0]
    have h1 : (contents m.store) = [] := List.length_eq_zero_iff.1 (by omega)
    have h2 : (contents r.store) = [] := List.length_eq_zero_iff.1 (by omega)
    exact ⟨[], rfl, by simp [PairsOk], by simp [h1], by simp [h2]⟩
  · rw [if_neg h0]
    have first : ∀ {s : St (Val D I S)}, WF Weak s → 0 < s.cur → Designates s (0, 0) 0 := by
      intro s hw hpos
      obtain ⟨p, -, hp⟩ := Mtv.position_in hw none (pos := 0) (Nat.zero_le _)
      obtain ⟨b, hb, -, -⟩ := designates_block hp hpos
      have h0 : s.blocks ≠ [] := by intro h; rw [h] at hb; simp at hb
      obtain ⟨b', rest, hbr⟩ := List.exists_cons_of_ne_nil h0
      have hb' : s.blocks[0]? = some b' := by simp [hbr]
      have f := Mtv.block_facts hw hb'
      exact Or.inl ⟨b', hb', f.1, by simp [f.2.2.2 rfl]⟩
    have hcur' := wf_len hg'.wf
    obtain ⟨ns, h1, h2, h3, h4⟩ := walkBoth_ok hg.wf hg.typed hg'.wf hg'.typed hlen (m.store.cur + 1)
      (first hg.wf (by omega)) (first hg'.wf (by omega)) (rem := m.store.cur) (by omega) (by omega)
    refine ⟨ns, onStore_ok h1, h2, ?_, ?_⟩
    · rw [h3, List.drop_zero, List.take_of_length_le (by omega)]
    · rw [h4, List.drop_zero, List.take_of_length_le (by omega)]

theorem walkBothCols_ok {m r : Mtx D I S} {t u : Table D I S} (hg : Good m) (hs : Shows m t) (hg' : Good r) (hs' : Shows r u)
    {row rows : Nat} (h0 : 0 < rows) (hr : row + rows ≤ t.rows) (hr' : row + rows ≤ u.rows) :
    ∀ (n col : Nat) (p1 p2 : Nat × Nat), col + n ≤ t.cols → col + n ≤ u.cols →
      ∃ ns, walkBothCols r.store m.rows r.rows row rows col n p1 p2 m.store = .ok (ns, m.store) ∧ PairsOk ns ∧
        (ns.flatMap fun n => n.1.elems) = ((List.range' col n).flatMap fun j => (List.range' row rows).map fun i => t.at_ i j) ∧
        (ns.flatMap fun n => n.2.elems) = (List.range' col n).flatMap fun j => (List.range' row rows).map fun i => u.at_ i j
  | 0, col, p1, p2, _, _ => ⟨[], rfl, by simp [PairsOk], by simp, by simp⟩
  | n + 1, col, p1, p2, hc, hc' => by
    have hl : (contents m.store).length = t.rows * t.cols := by rw [hs.2.2.1, hs.1, hs.2.1]
    have hl' : (contents r.store).length = u.rows * u.cols := by rw [hs'.2.2.1, hs'.1, hs'.2.1]
    have hroom := col_room hr (show col < t.cols by omega)
    have hroom' := col_room hr' (show col < u.cols by omega)
    have hcur := wf_len hg.wf
    have hcur' := wf_len hg'.wf
    obtain ⟨x1, hp1, hp2⟩ := Mtv.position_in hg.wf (some (some p1.1)) (pos := m.rows * col + row) (by rw [hs.1]; omega)
    obtain ⟨x2, hq1, hq2⟩ := Mtv.position_in hg'.wf (some (some p2.1)) (pos := r.rows * col + row) (by rw [hs'.1]; omega)
    obtain ⟨ns, e1, e2, h1, h2, h3, h4⟩ := walkBothSections_ok hg.wf hg.typed hg'.wf hg'.typed (rows + 1) (rem := rows) hp2 hq2 h0
      (by rw [hs.1]; omega) (by rw [hs'.1]; omega) (by omega)
    obtain ⟨ns', h5, h6, h7, h8⟩ := walkBothCols_ok hg hs hg' hs' h0 hr hr' n (col + 1) e1 e2 (by omega) (by omega)
    refine ⟨ns ++ ns', ?_, ?_, ?_, ?_⟩
    · simp only [walkBothCols, bind_apply, hp1, obind_ok, onOther_ok hq1, h1, h5]; rfl
    · intro x hx
      rcases List.mem_append.1 hx with hx | hx
      · exact h2 x hx
      · exact h6 x hx
    · rw [hs.1, region_cols hs (show col < t.cols by omega) hr] at h3
      rw [List.flatMap_append, cells_inj h3, h7, List.range'_succ, List.flatMap_cons]
    · rw [hs'.1, region_cols hs' (show col < u.cols by omega) hr'] at h4
      rw [List.flatMap_append, cells_inj h4, h8, List.range'_succ, List.flatMap_cons]

theorem walkRangeWith_ok {m r : Mtx D I S} {t u : Table D I S} (hg : Good m) (hs : Shows m t) (hg' : Good r) (hs' : Shows r u)
    {r1 c1 r2 c2 : Nat} (h1 : r1 ≤ r2) (h2 : c1 ≤ c2) (h3 : r2 < t.rows) (h4 : c2 < t.cols) (h5 : r2 < u.rows) (h6 : c2 < u.cols) :
    ∃ ns, walkRangeWith m r r1 c1 r2 c2 = .ok ns m ∧ PairsOk ns ∧
      (ns.flatMap fun n => n.1.elems) = t.region r1 c1 r2 c2 ∧ (ns.flatMap fun n => n.2.elems) = u.region r1 c1 r2 c2 := by
  obtain ⟨p, hp, -⟩ := Mtv.position_in hg.wf none (pos := 0) (Nat.zero_le _)
  obtain ⟨p', hp', -⟩ := Mtv.position_in hg'.wf none (pos := 0) (Nat.zero_le _)
  obtain ⟨ns, a, b, c, d⟩ := walkBothCols_ok hg hs hg' hs' (row := r1) (rows := r2 - r1 + 1) (by omega) (by omega) (by omega)
    (c2 - c1 + 1) c1 p p' (by omega) (by omega)
  refine ⟨ns, ?_, b, c, d⟩
  rw [walkRangeWith, if_neg (by omega), if_neg (by rw [hs.1, hs.2.1, hs'.1, hs'.2.1]; omega)]
  have := onStore_ok (m := m) (x := do
    let p1 ← Mtv.position none 0
    let p2 ← onOther r.store (Mtv.position none 0)
    walkBothCols r.store m.rows r.rows r1 (r2 - r1 + 1) c1 (c2 - c1 + 1) p1 p2) (b := ns) (s := m.store)
    (by simp only [bind_apply, hp, obind_ok, onOther_ok hp', a])
  exact this

end Mdds.Mtm
