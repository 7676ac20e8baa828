import Verif.Mtm.Spec
import Verif.Mtv.Props

/-! # multi_type_matrix: lemmas about the store and single calls -/

namespace Mdds.Mtm
open Mdds.Mtv (St M WF Weak weak_ne weak_all contents contents_eq cells_length pointsTo Designates cellsOf Cell At Ty Blk EB)

set_option linter.unusedSectionVars false
set_option linter.unusedSimpArgs false

section Store
variable {α : Type} [DecidableEq α]

/-- `s'` is `s` with the cells from `p` on replaced by `X`. -/
structure Patch (s s' : St α) (p : Nat) (X : List (Cell α)) : Prop where
  wf : WF Weak s'
  len : (contents s').length = (contents s).length
  get : ∀ q : Nat, (contents s')[q]? = if p ≤ q ∧ q < p + X.length then X[q - p]? else (contents s)[q]?

omit [DecidableEq α] in
theorem patch_get {β : Type} (L X : List β) (p q : Nat) (h : p + X.length ≤ L.length) :
    (L.take p ++ X ++ L.drop (p + X.length))[q]? = if p ≤ q ∧ q < p + X.length then X[q - p]? else L[q]? := by
  have hl : (L.take p).length = p := by simp; omega
  by_cases h1 : q < p
  · rw [if_neg (by omega), List.append_assoc, List.getElem?_append_left (by omega), List.getElem?_take_of_lt h1]
  · by_cases h2 : q < p + X.length
    · rw [if_pos ⟨by omega, h2⟩, List.append_assoc, List.getElem?_append_right (by omega),
        List.getElem?_append_left (by omega), hl]
    · rw [if_neg (by omega), List.getElem?_append_right (by simp; omega), List.getElem?_drop]
      congr 1
      simp only [List.length_append, hl]
      omega

theorem wf_len {s : St α} (h : WF Weak s) : (contents s).length = s.cur := by
  rw [contents_eq]; exact cells_length h

/-- One call on a well-formed container. -/
theorem call_wf {s : St α} (h : WF Weak s) (c : Mtv.Call α) (hd : c.Defined (contents s)) :
    match c.spec (contents s) with
    | some L' => ∃ r s', c.run s = .ok (r, s') ∧ WF Weak s' ∧ contents s' = L' ∧ c.RetOk (contents s) r s'
    | none => c.run s = .err .outOfRange s := by
  have := Mtv.call_eff weak_ne h c hd (Or.inl weak_all)
  split <;> rename_i hs <;> rw [hs] at this
  · obtain ⟨r, s', h1, h2, h3⟩ := this
    exact ⟨r, s', h1, h2.wf, by rw [contents_eq, h2.cells], h3⟩
  · exact this

theorem patch_of {s s' : St α} {p : Nat} {X : List (Cell α)} (h1 : WF Weak s')
    (h2 : contents s' = (contents s).take p ++ X ++ (contents s).drop (p + X.length))
    (h : p + X.length ≤ (contents s).length) : Patch s s' p X :=
  ⟨h1, by rw [h2]; simp; omega, fun q => by rw [h2, patch_get _ _ _ _ h]⟩

theorem hint_ok {at_ : At} {s : St α} {pos : Nat} (h : pos < (contents s).length) : at_ ≠ none → contents s ≠ [] := by
  intro _ e; rw [e] at h; simp at h

theorem set_patch {s : St α} (h : WF Weak s) (at_ : At) {pos : Nat} (hp : pos < (contents s).length) (ty : Ty) (x : α) :
    ∃ i s', Mtv.set at_ pos ty x s = .ok (i, s') ∧ Patch s s' pos [some (ty, x)] ∧ pointsTo s' i pos := by
  have := call_wf h (.set at_ pos ty x) ⟨hint_ok hp, trivial⟩
  simp only [Mtv.Call.spec, if_pos hp] at this
  obtain ⟨r, s', h1, h2, h3, h4⟩ := this
  obtain ⟨i, h5, rfl⟩ := Mtv.unwrap h1
  refine ⟨i, s', h5, patch_of h2 ?_ (by simp; omega), h4⟩
  rw [h3, List.set_eq_take_append_cons_drop, if_pos hp]; simp

theorem setRange_patch {s : St α} (h : WF Weak s) (at_ : At) {pos : Nat} (ty : Ty) (vs : List α) (hv : vs ≠ [])
    (hp : pos + vs.length ≤ (contents s).length) :
    ∃ i s', Mtv.setRange at_ pos ty vs s = .ok (i, s') ∧ Patch s s' pos (cellsOf ty vs) ∧ pointsTo s' i pos := by
  have hl : 0 < vs.length := List.length_pos_iff.2 hv
  have := call_wf h (.setRange at_ pos ty vs) ⟨hint_ok (pos := pos) (by omega), trivial⟩
  simp only [Mtv.Call.spec, if_neg hv, if_pos hp] at this
  obtain ⟨r, s', h1, h2, h3, h4⟩ := this
  obtain ⟨i, h5, rfl⟩ := Mtv.unwrap h1
  simp only [Mtv.Call.RetOk, if_neg hv] at h4
  exact ⟨i, s', h5, patch_of h2 (by rw [h3]; simp [cellsOf]) (by simpa [cellsOf] using hp), h4⟩

theorem setRange_nil {s : St α} (at_ : At) {pos : Nat} (ty : Ty) :
    Mtv.setRange at_ pos ty [] s = .ok (s.blocks.length, s) := by
  simp [Mtv.setRange, Mtv.bind_apply, Mtv.curSize_ap, Mtv.nBlocks_ap, M.pure]

theorem setEmpty_patch {s : St α} (h : WF Weak s) (at_ : At) {a b : Nat} (hab : a ≤ b) (hb : b < (contents s).length) :
    ∃ i s', Mtv.setEmpty at_ a b s = .ok (i, s') ∧ Patch s s' a (List.replicate (b - a + 1) none) ∧ pointsTo s' i a := by
  have := call_wf h (.setEmpty at_ a b) ⟨hint_ok hb, trivial⟩
  simp only [Mtv.Call.spec, if_pos (And.intro hab hb)] at this
  obtain ⟨r, s', h1, h2, h3, h4⟩ := this
  obtain ⟨i, h5, rfl⟩ := Mtv.unwrap h1
  refine ⟨i, s', h5, patch_of h2 ?_ (by simp; omega), h4⟩
  rw [h3]; simp only [List.length_replicate]; congr 2; omega

/-- What a call outside the store leaves. -/
theorem set_far {s : St α} (h : WF Weak s) {pos : Nat} (hp : (contents s).length ≤ pos) (ty : Ty) (x : α) :
    Mtv.set none pos ty x s = .err .outOfRange s := Mtv.set_out h none (by rwa [← wf_len h]) (Or.inl rfl) ty x

theorem setEmpty_far {s : St α} (h : WF Weak s) {a b : Nat} (hb : b < a ∨ (contents s).length ≤ b) :
    Mtv.setEmpty none a b s = .err .outOfRange s :=
  Mtv.setEmpty_out h none (by rwa [← wf_len h]) (Or.inl rfl)

theorem setRange_far {s : St α} (h : WF Weak s) (at_ : At) {pos : Nat} (ty : Ty) (vs : List α) (hv : vs ≠ [])
    (hp : (contents s).length < pos + vs.length) : Mtv.setRange at_ pos ty vs s = .err .outOfRange s :=
  Mtv.setRange_out at_ ty vs hv (by rwa [← wf_len h])

theorem Patch.trans_get {s s' : St α} {p : Nat} {X : List (Cell α)} (h : Patch s s' p X) {q : Nat}
    (hq : q < p ∨ p + X.length ≤ q) : (contents s')[q]? = (contents s)[q]? := by
  rw [h.get, if_neg (by omega)]

end Store

/-! ### Positions -/

theorem pos_lt {R C r c : Nat} (hr : r < R) (hc : c < C) : R * c + r < R * C := by
  have : R * (c + 1) ≤ R * C := Nat.mul_le_mul_left R hc
  rw [Nat.mul_succ] at this
  omega

theorem pos_inj {R r c i j : Nat} (hr : r < R) (hi : i < R) (h : R * j + i = R * c + r) : i = r ∧ j = c := by
  have h1 := Nat.mul_add_mod R j i
  have h2 := Nat.mul_add_mod R c r
  rw [Nat.mod_eq_of_lt hi] at h1
  rw [Nat.mod_eq_of_lt hr] at h2
  have hir : i = r := by rw [← h1, ← h2, h]
  subst hir
  refine ⟨rfl, Nat.eq_of_mul_eq_mul_left (Nat.lt_of_le_of_lt (Nat.zero_le _) hi) (by omega)⟩

theorem pos_col {R n c i j : Nat} (hn : n ≤ R) (hi : i < R) :
    (R * c ≤ R * j + i ∧ R * j + i < R * c + n) ↔ (j = c ∧ i < n) := by
  constructor
  · rintro ⟨h1, h2⟩
    have hlt : R * j + i - R * c < R := by omega
    have := pos_inj (R := R) (r := R * j + i - R * c) (c := c) (i := i) (j := j) hlt hi (by omega)
    have h3 := this.1
    exact ⟨this.2, by omega⟩
  · rintro ⟨rfl, h⟩; omega

section Matrix
variable {D I S : Type} [DecidableEq D] [DecidableEq I] [DecidableEq S]

@[simp] theorem cellOf_some (v : Val D I S) : cellOf (some v) = some (v.ty, v) := rfl
@[simp] theorem cellOf_none : cellOf (none : Elem D I S) = none := rfl

theorem cellOf_inj {a b : Elem D I S} (h : cellOf a = cellOf b) : a = b := by
  cases a <;> cases b <;> simp_all [cellOf]

theorem arr_ty (a : Arr D I S) : ∀ v ∈ a.vals, v.ty = a.ty := by
  intro v hv
  cases a <;> obtain ⟨x, -, rfl⟩ := List.mem_map.1 hv <;> rfl

theorem arr_cells (a : Arr D I S) : cellsOf a.ty a.vals = a.vals.map fun v => cellOf (some v) := by
  unfold cellsOf
  apply List.map_congr_left
  intro v hv
  simp [arr_ty a v hv]

@[simp] theorem arr_take_vals (n : Nat) (a : Arr D I S) : (a.take n).vals = a.vals.take n := by
  cases a <;> simp [Arr.take, Arr.vals]
@[simp] theorem arr_take_ty (n : Nat) (a : Arr D I S) : (a.take n).ty = a.ty := by cases a <;> rfl
@[simp] theorem arr_drop_vals (n : Nat) (a : Arr D I S) : (a.drop n).vals = a.vals.drop n := by
  cases a <;> simp [Arr.drop, Arr.vals]
@[simp] theorem arr_drop_ty (n : Nat) (a : Arr D I S) : (a.drop n).ty = a.ty := by cases a <;> rfl

/-- What every reached matrix is: its store is sound, has one cell for every element, and the
cells hold values of their type. -/
structure Good (m : Mtx D I S) : Prop where
  wf : WF Weak m.store
  len : (contents m.store).length = m.rows * m.cols
  typed : ∀ (q : Nat) c, (contents m.store)[q]? = some c → ∃ e, c = cellOf e

/-- The table a matrix shows. -/
def tableOf (m : Mtx D I S) : Table D I S :=
  ⟨m.rows, m.cols, fun i j => ((contents m.store)[m.rows * j + i]?.bind id).map Prod.snd⟩

theorem Good.shows {m : Mtx D I S} (h : Good m) : Shows m (tableOf m) := by
  refine ⟨rfl, rfl, h.len, ?_⟩
  intro i j hi hj
  have hlt : m.rows * j + i < (contents m.store).length := by rw [h.len]; exact pos_lt hi hj
  obtain ⟨e, he⟩ := h.typed (m.rows * j + i) _ (List.getElem?_eq_getElem hlt)
  simp only [tableOf, List.getElem?_eq_getElem hlt, he]
  cases e <;> simp

theorem cell_pos {R C q : Nat} (h : q < R * C) : q % R < R ∧ q / R < C ∧ R * (q / R) + q % R = q := by
  have hR : 0 < R := by
    rcases Nat.eq_zero_or_pos R with h0 | h0
    · subst h0; simp at h
    · exact h0
  exact ⟨Nat.mod_lt _ hR, Nat.div_lt_of_lt_mul h, Nat.div_add_mod q R⟩

theorem good_of {m : Mtx D I S} {t : Table D I S} (hw : WF Weak m.store) (hs : Shows m t) : Good m := by
  obtain ⟨h1, h2, h3, h4⟩ := hs
  refine ⟨hw, h3, ?_⟩
  intro q c hc
  have hq : q < m.rows * m.cols := by rw [← h3]; exact (List.getElem?_eq_some_iff.1 hc).1
  obtain ⟨a1, a2, a3⟩ := cell_pos hq
  have := h4 (q % m.rows) (q / m.rows) (by omega) (by omega)
  rw [← h1, a3, hc] at this
  exact ⟨_, by simpa using this⟩

/-- Two tables that agree where it matters are shown by the same matrices. -/
theorem Shows.congr {m : Mtx D I S} {t t' : Table D I S} (h : Shows m t) (h1 : t'.rows = t.rows) (h2 : t'.cols = t.cols)
    (h3 : ∀ i j, i < t.rows → j < t.cols → t'.at_ i j = t.at_ i j) : Shows m t' := by
  obtain ⟨a, b, c, d⟩ := h
  exact ⟨a.trans h1.symm, b.trans h2.symm, c, fun i j hi hj => by
    rw [h1] at hi ⊢; rw [h2] at hj; rw [d i j hi hj, h3 i j hi hj]⟩

/-- The table is determined where it matters. -/
theorem Shows.unique {m : Mtx D I S} {t t' : Table D I S} (h : Shows m t) (h' : Shows m t') :
    t.rows = t'.rows ∧ t.cols = t'.cols ∧ ∀ i j, i < t.rows → j < t.cols → t.at_ i j = t'.at_ i j := by
  obtain ⟨a, b, c, d⟩ := h
  obtain ⟨a', b', c', d'⟩ := h'
  have e1 : t.rows = t'.rows := a.symm.trans a'
  have e2 : t.cols = t'.cols := b.symm.trans b'
  refine ⟨e1, e2, fun i j hi hj => ?_⟩
  have x := d i j hi hj
  have y := d' i j (e1 ▸ hi) (e2 ▸ hj)
  rw [← e1, x] at y
  exact cellOf_inj (by simpa using y)

theorem shows_patch {m : Mtx D I S} {t t' : Table D I S} {s' : St (Val D I S)} {p : Nat} {X : List (Cell (Val D I S))}
    (hs : Shows m t) (hp : Patch m.store s' p X) (h1 : t'.rows = t.rows) (h2 : t'.cols = t.cols)
    (h3 : ∀ i j, i < t.rows → j < t.cols → t.rows * j + i < t.rows * t.cols →
      if p ≤ t.rows * j + i ∧ t.rows * j + i < p + X.length then
        X[t.rows * j + i - p]? = some (cellOf (t'.at_ i j)) else t'.at_ i j = t.at_ i j) :
    Shows ⟨s', m.rows, m.cols⟩ t' := by
  obtain ⟨a, b, c, d⟩ := hs
  refine ⟨a.trans h1.symm, b.trans h2.symm, by simp only [hp.len]; exact c, fun i j hi hj => ?_⟩
  rw [h1] at hi ⊢; rw [h2] at hj
  have := h3 i j hi hj (pos_lt hi hj)
  simp only [hp.get]
  split
  · rename_i hc; rwa [if_pos hc] at this
  · rename_i hc; rw [if_neg hc] at this; rw [d i j hi hj, this]

theorem Shows.good {m : Mtx D I S} {t : Table D I S} (hs : Shows m t) (hw : WF Weak m.store) : Good m := good_of hw hs

/-! ### Copies -/

theorem copyBlocks_facts {α : Type} : ∀ (bs : List (Mtv.Blk α)) (n : Nat),
    (copyBlocks n bs).map Mtv.Blk.ty = bs.map Mtv.Blk.ty ∧ (copyBlocks n bs).map Mtv.Blk.size = bs.map Mtv.Blk.size ∧
    Mtv.cells (copyBlocks n bs) = Mtv.cells bs ∧ ∀ p, Mtv.Tile p bs → Mtv.Tile p (copyBlocks n bs)
  | [], _ => ⟨rfl, rfl, rfl, fun _ h => h⟩
  | ⟨pos, size, none⟩ :: bs, n => by
    obtain ⟨h1, h2, h3, h4⟩ := copyBlocks_facts bs n
    refine ⟨by simp [copyBlocks, h1], by simp [copyBlocks, h2], ?_, fun p h => ⟨h.1, h.2.1, h4 _ h.2.2⟩⟩
    simp only [copyBlocks, Mtv.cells, List.flatMap_cons] at h3 ⊢; rw [h3]
  | ⟨pos, size, some d⟩ :: bs, n => by
    obtain ⟨h1, h2, h3, h4⟩ := copyBlocks_facts bs (n + 1)
    refine ⟨by simp [copyBlocks, h1, Mtv.Blk.ty], by simp [copyBlocks, h2], ?_, fun p h => ⟨h.1, ⟨h.2.1.1, ?_⟩, h4 _ h.2.2⟩⟩
    · simp only [copyBlocks, Mtv.cells, List.flatMap_cons, Mtv.Blk.cells] at h3 ⊢; rw [h3]
    · intro e he
      cases he
      exact h.2.1.2 d rfl

theorem copy_contents {α : Type} (s : St α) : contents (copyStore s) = contents s := by
  exact (copyBlocks_facts s.blocks 0).2.2.1

theorem copy_wf {α : Type} {P : Option Ty → Prop} {s : St α} (h : WF P s) : WF P (copyStore s) := by
  obtain ⟨h1, h2, -, h4⟩ := copyBlocks_facts s.blocks 0
  refine ⟨h4 _ h.tile, ?_, ?_⟩
  · show s.cur = Mtv.total (copyBlocks 0 s.blocks)
    rw [Mtv.total, h2]; exact h.cur
  · show Mtv.Sep P (copyBlocks 0 s.blocks)
    rw [Mtv.Sep, h1]; exact h.sep

theorem copy_shows {m : Mtx D I S} {t : Table D I S} (h : Shows m t) : Shows (copyOf m) t := by
  obtain ⟨a, b, c, d⟩ := h
  exact ⟨a, b, by rw [show (copyOf m).store = copyStore m.store from rfl, copy_contents]; exact c,
    fun i j hi hj => by rw [show (copyOf m).store = copyStore m.store from rfl, copy_contents]; exact d i j hi hj⟩

theorem copyOf_good {m : Mtx D I S} (h : Good m) : Good (copyOf m) := (copy_shows h.shows).good (copy_wf h.wf)

end Matrix
end Mdds.Mtm
