import Verif.Mtm.Walk

/-!
Properties C41-C44 of `multi_type_matrix`.

`Shows m t`: the matrix `m` shows the table `t` (Spec.lean).  `Reach m`: `m` results from some
history of constructions, calls with any arguments and copies from other such matrices, where
exceptions are caught.  A position object `p` designates element (r, c) when
`Designates m.store p (m.pos r c)`: its block iterator and offset lead to that element's place in
the value store (Mtv/Spec.lean).
-/
namespace Mdds.Mtm
open Mdds.Mtv (St M WF Weak contents Designates At Ty)

variable {D I S : Type} [DecidableEq D] [DecidableEq I] [DecidableEq S]

/-- Several calls one after the other. -/
def runAll : List (MCall D I S) → Mtx D I S → Option (Mtx D I S)
  | [], m => some m
  | c :: cs, m => (c.run m).bind (runAll cs)

theorem reach_run : ∀ (cs : List (MCall D I S)) {m m' : Mtx D I S}, Reach m → runAll cs m = some m' → Reach m'
  | [], _, _, h, e => by cases e; exact h
  | c :: cs, m, m', h, e => by
    simp only [runAll] at e
    cases hc : c.run m with
    | none => rw [hc] at e; cases e
    | some x => rw [hc] at e; exact reach_run cs (.call c h hc) e

/-- A 3 x 2 matrix with numbers, a boolean, a string and an empty element. -/
def demo : Mtx Nat Nat Nat :=
  (runAll [.set 0 0 (.num 1), .set 1 0 (.bool true), .set 2 0 (.str 7), .set 0 1 (.str 8), .set 2 1 (.num 5)] (mkSize 3 2)).getD mk0

theorem demo_reach : Reach demo :=
  reach_run [.set 0 0 (.num 1), .set 1 0 (.bool true), .set 2 0 (.str 7), .set 0 1 (.str 8), .set 2 1 (.num 5)]
    (.sized 3 2) (by decide +kernel)

/-- A computable check for examples. -/
def shown (m : Mtx Nat Nat Nat) (t : Table Nat Nat Nat) : Bool :=
  m.rows == t.rows && m.cols == t.cols && (contents m.store).length == m.rows * m.cols &&
  (List.range t.rows).all fun i => (List.range t.cols).all fun j =>
    decide ((contents m.store)[t.rows * j + i]? = some (cellOf (t.at_ i j)))

omit [DecidableEq D] [DecidableEq I] [DecidableEq S] in
theorem shown_iff {m : Mtx Nat Nat Nat} {t : Table Nat Nat Nat} (h : shown m t = true) : Shows m t := by
  simp only [shown, Bool.and_eq_true, beq_iff_eq, List.all_eq_true, List.mem_range, decide_eq_true_eq] at h
  exact ⟨h.1.1.1, h.1.1.2, h.1.2, fun i j hi hj => h.2 i hi j hj⟩

/-- The table `demo` shows. -/
def demoTable : Table Nat Nat Nat :=
  ⟨3, 2, fun i j => (([some (.num 1), some (.bool true), some (.str 7), some (.str 8), none, some (.num 5)] : List (Elem Nat Nat Nat))[3 * j + i]?).getD none⟩

theorem demo_shows : Shows demo demoTable := shown_iff (by decide +kernel)

/-- The same with an integer at (1, 1). -/
def demoInt : Mtx Nat Nat Nat := ((MCall.set 1 1 (.int 9)).run demo).getD mk0

theorem demoInt_reach : Reach demoInt := .call (.set 1 1 (.int 9)) demo_reach (by decide +kernel)

theorem demoInt_shows : Shows demoInt (demoTable.put 1 1 (some (.int 9))) := shown_iff (by decide +kernel)

/-! ### C41 -/

/-- Every reached matrix shows exactly one table. -/
theorem C41_table {m : Mtx D I S} (h : Reach m) : ∃ t, Shows m t ∧ ∀ t', Shows m t' →
    t.rows = t'.rows ∧ t.cols = t'.cols ∧ ∀ i j, i < t.rows → j < t.cols → t.at_ i j = t'.at_ i j :=
  ⟨_, (reach_good h).shows, fun _ h' => (reach_good h).shows.unique h'⟩

example : Reach demo ∧ demo.rows = 3 ∧ demo.cols = 2 := ⟨demo_reach, by decide +kernel, by decide +kernel⟩

/-- The constructors: an empty matrix, empty elements, copies of a value, the elements of an
array column by column; an array of the wrong length is refused. -/
theorem C41_construct (r c : Nat) (v : Val D I S) (a : Arr D I S) :
    Shows (mk0 : Mtx D I S) (Table.const 0 0 none) ∧ Shows (mkSize r c : Mtx D I S) (Table.const r c none) ∧
    (∃ m, mkFill r c v = .ok m ∧ Shows m (Table.const r c (some v))) ∧
    ((r * c = 0 ∨ r * c = a.vals.length) → ∃ m, mkArr r c a = .ok m ∧ Shows m ⟨r, c, fun i j => a.vals[r * j + i]?⟩) ∧
    (¬ (r * c = 0 ∨ r * c = a.vals.length) → mkArr r c a = .err .invalidArg) := by
  obtain ⟨x, h1, -, h2⟩ := good_fill r c v
  refine ⟨good_mk0.2, (good_sized r c).2, ⟨x, h1, h2⟩, fun h => ?_, (good_arr r c a).2⟩
  obtain ⟨y, h3, -, h4⟩ := (good_arr r c a).1 h
  exact ⟨y, h3, h4⟩

example : (2 * 2 = 0 ∨ 2 * 2 = (Arr.nums [1, 2, 3, 4] : Arr Nat Nat Nat).vals.length) ∧
    ¬ (3 * 2 = 0 ∨ 3 * 2 = (Arr.nums [1, 2, 3, 4] : Arr Nat Nat Nat).vals.length) := by decide

/-- `get_type` and `get<T>` return the element's type and value; `get<T>` of an empty element is the
empty value, whatever the type asked for. -/
theorem C41_get {m : Mtx D I S} {t : Table D I S} (h : Reach m) (hs : Shows m t) {r c : Nat} (hr : r < t.rows) (hc : c < t.cols) :
    getType m r c = .ok ((t.at_ r c).map Val.ty) m ∧
    (∀ v, t.at_ r c = some v → get m v.ty r c = .ok (some v) m) ∧
    (t.at_ r c = none → ∀ ty, get m ty r c = .ok none m) :=
  have hg := reach_good h
  ⟨onStore_ok (getType_ok hg hs hr hc), fun _ hv => onStore_ok (get_ok hg hs hr hc hv),
    fun hv ty => onStore_ok (get_empty hg hs hr hc hv ty)⟩

example : Reach demo ∧ Shows demo demoTable ∧ demoTable.at_ 2 0 = some (.str 7) ∧ demoTable.at_ 1 1 = none :=
  ⟨demo_reach, demo_shows, by decide, by decide⟩

/-- `get_numeric`, `get_integer` and `get_boolean` convert integers and booleans, and give zero for
strings and empty elements. -/
theorem C41_get_numeric (cv : Conv D I) {m : Mtx D I S} {t : Table D I S} (h : Reach m) (hs : Shows m t) {r c : Nat}
    (hr : r < t.rows) (hc : c < t.cols) :
    getNumeric cv m r c = .ok ((t.at_ r c).num cv) m ∧
    getInteger cv m r c = .ok (cv.toInt ((t.at_ r c).num cv)) m ∧
    getBoolean cv m r c = .ok (cv.toBool ((t.at_ r c).num cv)) m := by
  have hg := reach_good h
  obtain ⟨p, h1, h2⟩ := position_ok hg hs none hr hc
  have h3 := getNumericAt_ok cv hg.wf h2 (cell_shown hs hr hc)
  refine ⟨onStore_ok ?_, onStore_ok ?_, onStore_ok ?_⟩ <;>
    simp only [Mtv.bind_apply, h1, Mtv.obind_ok, h3, Mtv.M.pure]

example : (demoTable.at_ 1 0).num (⟨0, id, fun b => if b then 1 else 0, id, fun d => d != 0⟩ : Conv Nat Nat) = 1 ∧
    1 < demoTable.rows ∧ 0 < demoTable.cols := by decide

/-- `get_string` returns a string element and throws for any other. -/
theorem C41_get_string {m : Mtx D I S} {t : Table D I S} (h : Reach m) (hs : Shows m t) {r c : Nat} (hr : r < t.rows) (hc : c < t.cols) :
    (∀ x, t.at_ r c = some (.str x) → getString m r c = .ok x m) ∧
    ((∀ x, t.at_ r c ≠ some (.str x)) → getString m r c = .err .general m) := by
  have hg := reach_good h
  obtain ⟨p, h1, h2⟩ := position_ok hg hs none hr hc
  have h3 := getStringAt_ok hg.wf h2 (cell_shown hs hr hc)
  constructor
  · intro x hx
    exact onStore_ok (by simp only [Mtv.bind_apply, h1, Mtv.obind_ok]; exact h3.1 x hx)
  · intro hno
    exact onStore_err (by simp only [Mtv.bind_apply, h1, Mtv.obind_ok]; exact h3.2 hno)

example : demoTable.at_ 0 1 = some (.str 8) ∧ ∀ x, demoTable.at_ 0 0 ≠ some (.str x) := ⟨by decide, fun x => by simp [demoTable]⟩

/-- A position object obtained for an element, with any hint, designates it, `matrix_position` gives
the element back, and reading through it is reading the element. -/
theorem C41_position (cv : Conv D I) {m : Mtx D I S} {t : Table D I S} (h : Reach m) (hs : Shows m t) (at_ : At) {r c : Nat}
    (hr : r < t.rows) (hc : c < t.cols) :
    ∃ p, position m at_ r c = .ok p m ∧ Designates m.store p (m.pos r c) ∧ matrixPosition m p = .ok (r, c) m ∧
      getTypeAt m p = .ok ((t.at_ r c).map Val.ty) m ∧
      onStore m (getNumericAt cv p) = .ok ((t.at_ r c).num cv) m ∧
      (∀ x, t.at_ r c = some (.str x) → onStore m (getStringAt p) = .ok x m) := by
  have hg := reach_good h
  obtain ⟨p, h1, h2⟩ := position_ok hg hs at_ hr hc
  have hcell := cell_shown hs hr hc
  have hin := in_store hs hr hc
  refine ⟨p, onStore_ok h1, h2, ?_, ?_, onStore_ok (getNumericAt_ok cv hg.wf h2 hcell), fun x hx => ?_⟩
  · have h3 := Mtv.logical_ok h2 (by rw [← wf_len hg.wf]; exact hin)
    have e := hs.1
    unfold matrixPosition
    simp only [h3]
    rw [if_neg (by omega)]
    have hdiv : m.pos r c / m.rows = c := by
      rw [Mtx.pos, Nat.mul_add_div (by omega), Nat.div_eq_of_lt (by omega), Nat.add_zero]
    rw [hdiv, Mtx.pos, Nat.add_sub_cancel_left]
  · obtain ⟨b, h3, -, -, h4⟩ := elem_block hg.wf h2 hcell
    refine onStore_ok ?_
    simp only [Mtv.bind_apply, Mtv.getB_ap, h3, Mtv.obind_ok, Mtv.M.pure]
    revert h4
    cases t.at_ r c with
    | none => intro h4; simp [Mtv.Blk.ty, show b.data = none from h4]
    | some v => rintro ⟨d, h5, h6, -⟩; simp [Mtv.Blk.ty, h5, h6]
  · exact onStore_ok ((getStringAt_ok hg.wf h2 hcell).1 x hx)

example : 2 < demoTable.rows ∧ 1 < demoTable.cols ∧ position demo (some (some 2)) 2 1 = .ok (4, 0) demo := by decide +kernel

/-- `set(row, col, value)` changes exactly one element. -/
theorem C41_set {m : Mtx D I S} {t : Table D I S} (h : Reach m) (hs : Shows m t) {r c : Nat} (hr : r < t.rows) (hc : c < t.cols)
    (v : Val D I S) : ∃ m', set m r c v = .ok () m' ∧ Shows m' (t.put r c (some v)) := by
  obtain ⟨m', h1, -, h3⟩ := set_ok (reach_good h) hs hr hc v
  exact ⟨m', h1, h3⟩

example : Reach demo ∧ Shows demo demoTable ∧ 1 < demoTable.rows ∧ 1 < demoTable.cols :=
  ⟨demo_reach, demo_shows, by decide, by decide⟩

/-- What was set is read back, and every other element reads as before. -/
theorem C41_set_get {m : Mtx D I S} {t : Table D I S} (h : Reach m) (hs : Shows m t) {r c : Nat} (hr : r < t.rows) (hc : c < t.cols)
    (v : Val D I S) : ∃ m', set m r c v = .ok () m' ∧ get m' v.ty r c = .ok (some v) m' ∧
      ∀ i j, i < t.rows → j < t.cols → (i ≠ r ∨ j ≠ c) → ∀ w, t.at_ i j = some w → get m' w.ty i j = .ok (some w) m' := by
  obtain ⟨m', h1, h3⟩ := C41_set h hs hr hc v
  have hm' : Reach m' := .call (.set r c v) h (congrArg MRes.state h1)
  refine ⟨m', h1, (C41_get hm' h3 (r := r) (c := c) hr hc).2.1 v (by simp [Table.put]), fun i j hi hj hne w hw => ?_⟩
  refine (C41_get hm' h3 (r := i) (c := j) hi hj).2.1 w ?_
  simp only [Table.put]
  rw [if_neg (by omega)]; exact hw

example : demoTable.at_ 2 1 = some (.num 5) ∧ ((2 : Nat) ≠ 1 ∨ (1 : Nat) ≠ 1) := by decide

/-- `set(row, col, begin, end)` and `set_empty(row, col, length)` change a run going down the
columns; length 0 is refused by the latter. -/
theorem C41_set_run {m : Mtx D I S} {t : Table D I S} (h : Reach m) (hs : Shows m t) {r c : Nat} (a : Arr D I S) {n : Nat} :
    (t.rows * c + r + a.vals.length ≤ t.rows * t.cols →
      ∃ m', setRange m r c a = .ok () m' ∧ Shows m' (t.putRun r c a.vals.length fun k => a.vals[k]?)) ∧
    (0 < n → t.rows * c + r + n ≤ t.rows * t.cols →
      ∃ m', setEmptyLen m r c n = .ok () m' ∧ Shows m' (t.putRun r c n fun _ => none)) ∧
    setEmptyLen m r c 0 = .err .general m := by
  refine ⟨fun hl => ?_, fun hn hl => ?_, rfl⟩
  · obtain ⟨m', h1, -, h3⟩ := setRange_ok (reach_good h) hs a hl
    exact ⟨m', h1, h3⟩
  · obtain ⟨m', h1, -, h3⟩ := setEmptyLen_ok (reach_good h) hs hn hl
    exact ⟨m', h1, h3⟩

example : demoTable.rows * 0 + 1 + (Arr.nums [1, 2, 3] : Arr Nat Nat Nat).vals.length ≤ demoTable.rows * demoTable.cols := by decide

/-- `set_empty(row, col)`. -/
theorem C41_set_empty {m : Mtx D I S} {t : Table D I S} (h : Reach m) (hs : Shows m t) {r c : Nat} (hr : r < t.rows) (hc : c < t.cols) :
    ∃ m', setEmpty m r c = .ok () m' ∧ Shows m' (t.put r c none) := by
  obtain ⟨m', h1, -, h3⟩ := setEmpty_ok (reach_good h) hs hr hc
  exact ⟨m', h1, h3⟩

example : Reach demo ∧ Shows demo demoTable ∧ 2 < demoTable.rows ∧ 0 < demoTable.cols :=
  ⟨demo_reach, demo_shows, by decide, by decide⟩

/-- The calls with a position object do the same as those with row and column, and the position
they return designates the same element of the changed matrix. -/
theorem C41_set_at {m : Mtx D I S} {t : Table D I S} (h : Reach m) (hs : Shows m t) {r c : Nat} (hr : r < t.rows) (hc : c < t.cols)
    {p : Nat × Nat} (hp : Designates m.store p (m.pos r c)) (v : Val D I S) (a : Arr D I S) :
    (∃ m' p', setAt m p v = .ok p' m' ∧ Shows m' (t.put r c (some v)) ∧ Designates m'.store p' (m.pos r c)) ∧
    (∃ m' p', setEmptyAt m p = .ok p' m' ∧ Shows m' (t.put r c none) ∧ Designates m'.store p' (m.pos r c)) ∧
    (a.vals ≠ [] → t.rows * c + r + a.vals.length ≤ t.rows * t.cols →
      ∃ m' p', setRangeAt m p a = .ok p' m' ∧ Shows m' (t.putRun r c a.vals.length fun k => a.vals[k]?) ∧
        Designates m'.store p' (m.pos r c)) := by
  have hg := reach_good h
  refine ⟨?_, ?_, fun ha hl => ?_⟩
  · obtain ⟨m', p', h1, -, h2, h3⟩ := setAt_ok hg hs hr hc hp v
    exact ⟨m', p', h1, h2, h3⟩
  · obtain ⟨m', p', h1, -, h2, h3⟩ := setEmptyAt_ok hg hs hr hc hp
    exact ⟨m', p', h1, h2, h3⟩
  · obtain ⟨m', p', h1, -, h2, h3⟩ := setRangeAt_ok hg hs hp a ha hl
    exact ⟨m', p', h1, h2, h3⟩

example : Designates demo.store (4, 0) (demo.pos 2 1) :=
  Or.inl ⟨(demo.store.blocks[4]?).getD ⟨0, 0, none⟩, by decide +kernel, by decide +kernel, by decide +kernel⟩

/-- `set_column_empty`, `set_row_empty` and `set_column` change exactly a column, a row, and the top
of a column (an array longer than the column is cut off). -/
theorem C41_lines {m : Mtx D I S} {t : Table D I S} (h : Reach m) (hs : Shows m t) :
    (∀ c, 0 < t.rows → c < t.cols → ∃ m', setColumnEmpty m c = .ok () m' ∧ Shows m' (t.putColumn c t.rows fun _ => none)) ∧
    (∀ r, r < t.rows → ∃ m', setRowEmpty m r = .ok () m' ∧ Shows m' (t.emptyRow r)) ∧
    (∀ c (a : Arr D I S), c < t.cols → ∃ m', setColumn m c a = .ok () m' ∧
      Shows m' (t.putColumn c (min a.vals.length t.rows) fun k => a.vals[k]?)) := by
  have hg := reach_good h
  refine ⟨fun c h1 h2 => ?_, fun r h1 => ?_, fun c a h1 => ?_⟩
  · obtain ⟨m', x, -, y⟩ := setColumnEmpty_ok hg hs h1 h2; exact ⟨m', x, y⟩
  · obtain ⟨m', x, -, y⟩ := setRowEmpty_ok hg hs h1; exact ⟨m', x, y⟩
  · obtain ⟨m', x, -, y⟩ := setColumn_ok hg hs h1 a; exact ⟨m', x, y⟩

example : Reach demo ∧ Shows demo demoTable ∧ 0 < demoTable.rows ∧ 1 < demoTable.cols :=
  ⟨demo_reach, demo_shows, by decide, by decide⟩

/-- A place behind the last element is refused and nothing changes. -/
theorem C41_out_of_range {m : Mtx D I S} {t : Table D I S} (h : Reach m) (hs : Shows m t) {r c : Nat}
    (hr : t.rows * t.cols ≤ t.rows * c + r) (v : Val D I S) :
    set m r c v = .err .outOfRange m ∧ setEmpty m r c = .err .outOfRange m ∧ getType m r c = .err .outOfRange m := by
  have hg := reach_good h
  have hl : (contents m.store).length ≤ m.pos r c := by rw [hg.len, Mtx.pos, hs.1, hs.2.1]; exact hr
  refine ⟨onStore_err (drop_err (set_far hg.wf hl v.ty v)), onStore_err (drop_err (setEmpty_far hg.wf (Or.inr hl))),
    onStore_err (x := Mtv.getType (m.pos r c)) ?_⟩
  exact (Mtv.read_out (by rwa [← wf_len hg.wf]) tNum).2.1

example : Reach demo ∧ Shows demo demoTable ∧ demoTable.rows * demoTable.cols ≤ demoTable.rows * 2 + 0 :=
  ⟨demo_reach, demo_shows, by decide⟩

/-- A row behind the last one is not refused as such: setting element (3, 0) of a matrix with three
rows changes element (0, 1).  (The unit test `mtm_test_data_insertion` does this.) -/
theorem C41_row_bound_fails : ∃ m m' : Mtx Nat Nat Nat, Reach m ∧ m.rows = 3 ∧ set m 3 0 (.num 4) = .ok () m' ∧
    get m tStr 0 1 = .ok (some (.str 8)) m ∧ get m' tNum 0 1 = .ok (some (.num 4)) m' :=
  ⟨demo, ((MCall.set 3 0 (.num 4)).run demo).getD mk0, demo_reach, by decide +kernel, by decide +kernel, by decide +kernel,
    by decide +kernel⟩

/-- `numeric()`: the matrix has elements and all of them are numbers, integers or booleans. -/
theorem C41_numeric {m : Mtx D I S} {t : Table D I S} (h : Reach m) (hs : Shows m t) :
    ∃ b, numeric m = .ok b ∧ (b = true ↔ 0 < t.rows * t.cols ∧ ∀ i j, i < t.rows → j < t.cols → (t.at_ i j).isNumeric = true) :=
  numeric_ok (reach_good h) hs

example : Reach demo ∧ Shows demo demoTable ∧ numeric demo = .ok false := ⟨demo_reach, demo_shows, by decide +kernel⟩

/-- `empty()` and `size()`. -/
theorem C41_empty {m : Mtx D I S} {t : Table D I S} (h : Reach m) (hs : Shows m t) :
    (empty m = true ↔ t.rows * t.cols = 0) ∧ m.rows = t.rows ∧ m.cols = t.cols :=
  ⟨empty_iff (reach_good h) hs, hs.1, hs.2.1⟩

example : Reach demo ∧ Shows demo demoTable ∧ empty demo = false := ⟨demo_reach, demo_shows, by decide +kernel⟩

/-! ### C42 -/

/-- `transpose()` mirrors the matrix when it holds no integer. -/
theorem C42_transpose {m : Mtx D I S} {t : Table D I S} (h : Reach m) (hs : Shows m t) (hn : t.NoInt t.rows t.cols) :
    ∃ m', transpose m = .ok () m' ∧ Shows m' t.flip := by
  obtain ⟨m', h1, -, h3⟩ := (transpose_ok (reach_good h) hs).1 fun i j hi hj hint => by
    revert hint
    cases e : t.at_ i j with
    | none => exact id
    | some v => cases v with
      | int k => exact fun _ => hn i j k hi hj e
      | _ => exact id
  exact ⟨m', h1, h3⟩

theorem demo_noint (r c : Nat) : demoTable.NoInt r c := by
  intro i j k _ _
  have : ∀ q : Nat, (([some (.num 1), some (.bool true), some (.str 7), some (.str 8), none, some (.num 5)] : List (Elem Nat Nat Nat))[q]?).getD none ≠ some (.int k) := by
    intro q
    rcases q with _ | _ | _ | _ | _ | _ | q <;> simp
  exact this _

example : Reach demo ∧ Shows demo demoTable ∧ demoTable.NoInt demoTable.rows demoTable.cols :=
  ⟨demo_reach, demo_shows, demo_noint _ _⟩

/-- Transposing twice gives the matrix back. -/
theorem C42_twice {m : Mtx D I S} {t : Table D I S} (h : Reach m) (hs : Shows m t) (hn : t.NoInt t.rows t.cols) :
    ∃ m' m'', transpose m = .ok () m' ∧ transpose m' = .ok () m'' ∧ Shows m'' t := by
  obtain ⟨m', h1, h2⟩ := C42_transpose h hs hn
  obtain ⟨m'', h3, h4⟩ := C42_transpose (.call .transpose h (congrArg MRes.state h1)) h2
    (fun i j k hi hj => hn j i k hj hi)
  exact ⟨m', m'', h1, h3, h4⟩

example : Reach demo ∧ Shows demo demoTable ∧ demoTable.NoInt demoTable.rows demoTable.cols :=
  ⟨demo_reach, demo_shows, demo_noint _ _⟩

/-- With an integer element `transpose()` throws and changes nothing. -/
theorem C42_integer_throws {m : Mtx D I S} {t : Table D I S} (h : Reach m) (hs : Shows m t) {i j : Nat} {k : I} (hi : i < t.rows)
    (hj : j < t.cols) (he : t.at_ i j = some (.int k)) : transpose m = .err .general m :=
  (transpose_ok (reach_good h) hs).2 ⟨i, j, hi, hj, by rw [he]; trivial⟩

example : Reach demoInt ∧ Shows demoInt (demoTable.put 1 1 (some (.int 9))) ∧ (demoTable.put 1 1 (some (.int 9))).at_ 1 1 = some (.int 9) :=
  ⟨demoInt_reach, demoInt_shows, by decide⟩

/-! ### C43 -/

omit [DecidableEq D] [DecidableEq I] [DecidableEq S] in
theorem notInt_of {t : Table D I S} {i j : Nat} (h : ∀ k, t.at_ i j ≠ some (.int k)) : ¬ (t.at_ i j).isInt := by
  revert h
  cases t.at_ i j with
  | none => exact fun _ => id
  | some v => cases v with
    | int k => exact fun h _ => h k rfl
    | _ => exact fun _ => id

/-- `copy(src)` overwrites exactly the part both matrices have.  Partial: no integer of `src` in
that part (false otherwise, see `C43_copy_fails`); `src` is another matrix. -/
theorem C43_copy_partial {m src : Mtx D I S} {t u : Table D I S} (h : Reach m) (hs : Shows m u) (h' : Reach src) (hs' : Shows src t)
    (hn : t.NoInt (min t.rows u.rows) (min t.cols u.cols)) :
    ∃ m', copyFrom src m = .ok () m' ∧ Shows m' (u.overlay t) := by
  obtain ⟨m', h1, -, h3⟩ := (copyFrom_ok (reach_good h) hs (reach_good h') hs').1 fun i j a b c d =>
    notInt_of fun k => hn i j k (by omega) (by omega)
  exact ⟨m', h1, h3⟩

/-- A 2 x 3 matrix to copy into. -/
def demo2 : Mtx Nat Nat Nat := (match (mkFill 2 3 (.num 4) : Outcome (Mtx Nat Nat Nat)) with | .ok m => some m | _ => none).getD mk0

theorem demo2_reach : Reach demo2 := .fill 2 3 (.num 4) (by decide +kernel)

theorem demo2_shows : Shows demo2 (Table.const 2 3 (some (.num 4))) := shown_iff (by decide +kernel)

example : Reach demo2 ∧ Shows demo2 (Table.const 2 3 (some (.num 4))) ∧ Reach demo ∧ Shows demo demoTable ∧
    demoTable.NoInt (min 3 2) (min 2 3) := ⟨demo2_reach, demo2_shows, demo_reach, demo_shows, demo_noint _ _⟩

/-- With an integer of `src` in the common part `copy(src)` throws; then every element is the old
one or the one of `src` at its place. -/
theorem C43_copy_throws {m src : Mtx D I S} {t u : Table D I S} (h : Reach m) (hs : Shows m u) (h' : Reach src) (hs' : Shows src t)
    {i j : Nat} {k : I} (h1 : i < u.rows) (h2 : j < u.cols) (h3 : i < t.rows) (h4 : j < t.cols) (he : t.at_ i j = some (.int k)) :
    ∃ m' v, copyFrom src m = .err .general m' ∧ Shows m' v ∧ v.rows = u.rows ∧ v.cols = u.cols ∧
      ∀ i j, i < u.rows → j < u.cols → v.at_ i j = u.at_ i j ∨ (i < t.rows ∧ j < t.cols ∧ v.at_ i j = t.at_ i j) := by
  obtain ⟨m', v, a, -, b, c1, c2, c3⟩ := (copyFrom_ok (reach_good h) hs (reach_good h') hs').2
    ⟨i, j, h1, h2, h3, h4, by rw [he]; trivial⟩
  exact ⟨m', v, a, b, c1, c2, c3⟩

example : Reach demoInt ∧ Shows demoInt (demoTable.put 1 1 (some (.int 9))) ∧ (demoTable.put 1 1 (some (.int 9))).at_ 1 1 = some (.int 9) ∧
    Reach demo2 ∧ Shows demo2 (Table.const 2 3 (some (.num 4))) :=
  ⟨demoInt_reach, demoInt_shows, by decide, demo2_reach, demo2_shows⟩

/-- The code copies no integers: copying a matrix with an integer throws, after the first column has
been overwritten. -/
theorem C43_copy_fails : ∃ m src m' : Mtx Nat Nat Nat, Reach m ∧ Reach src ∧ copyFrom src m = .err .general m' ∧ m' ≠ m ∧
    get m tNum 0 0 = .ok (some (.num 4)) m ∧ get m' tNum 0 0 = .ok (some (.num 1)) m' ∧
    get src tNum 0 0 = .ok (some (.num 1)) src :=
  ⟨demo2, demoInt, (copyFrom demoInt demo2).state.getD mk0, demo2_reach, demoInt_reach, by decide +kernel, by decide +kernel,
    by decide +kernel, by decide +kernel, by decide +kernel⟩

/-- `copy(rows, cols, begin, end)` overwrites the top left part with the array, column by column;
an array of another length or a part that does not fit is refused. -/
theorem C43_copy_array {m : Mtx D I S} {u : Table D I S} (h : Reach m) (hs : Shows m u) (rows cols : Nat) (a : Arr D I S) :
    (a.vals.length = rows * cols → rows ≤ u.rows → cols ≤ u.cols →
      ∃ m', copyArr m rows cols a = .ok () m' ∧ Shows m' (u.overlay ⟨rows, cols, fun i j => a.vals[rows * j + i]?⟩)) ∧
    (a.vals ≠ [] → 0 < u.rows * u.cols → (a.vals.length ≠ rows * cols ∨ u.rows < rows ∨ u.cols < cols) →
      copyArr m rows cols a = .err .size m) := by
  have hg := reach_good h
  refine ⟨fun h1 h2 h3 => ?_, fun h1 h2 h3 => ?_⟩
  · obtain ⟨m', x, -, y⟩ := copyArr_ok hg hs a h1 h2 h3
    exact ⟨m', x, y⟩
  · have he := empty_iff hg hs
    unfold copyArr
    rw [if_neg]
    · by_cases hl : a.vals.length ≠ rows * cols
      · rw [if_pos hl]
      · rw [if_neg hl, if_pos (by rw [hs.1, hs.2.1]; omega)]
    · rintro (h0 | h0)
      · exact h1 (List.length_eq_zero_iff.1 h0)
      · have := he.1 h0; omega

example : Reach demo ∧ Shows demo demoTable ∧ (Arr.nums [1, 2, 3, 4] : Arr Nat Nat Nat).vals.length = 2 * 2 ∧ 2 ≤ demoTable.rows ∧ 2 ≤ demoTable.cols :=
  ⟨demo_reach, demo_shows, by decide, by decide, by decide⟩

/-- `resize(rows, cols)` keeps the common part and adds empty elements.  Partial: no integer in the
common part (false otherwise, see `C43_resize_fails`). -/
theorem C43_resize_partial {m : Mtx D I S} {t : Table D I S} (h : Reach m) (hs : Shows m t) {rows cols : Nat} (hr : rows ≠ 0)
    (hc : cols ≠ 0) (hn : t.NoInt (min t.rows rows) (min t.cols cols)) :
    ∃ m', resize m rows cols = .ok () m' ∧ Shows m' ((Table.const rows cols none).overlay t) := by
  obtain ⟨m', h1, -, h3⟩ := (resize_ok (reach_good h) hs rows cols).2.1 hr hc fun i j a b c d =>
    notInt_of fun k => hn i j k (by omega) (by omega)
  exact ⟨m', h1, h3⟩

example : Reach demo ∧ Shows demo demoTable ∧ demoTable.NoInt (min 3 2) (min 2 4) := ⟨demo_reach, demo_shows, demo_noint _ _⟩

/-- `resize(rows, cols, value)` keeps the common part and adds copies of the value.  Partial: no
integer in the common part. -/
theorem C43_resize_fill_partial {m : Mtx D I S} {t : Table D I S} (h : Reach m) (hs : Shows m t) {rows cols : Nat} (v : Val D I S)
    (hr : rows ≠ 0) (hc : cols ≠ 0) (hn : t.NoInt (min t.rows rows) (min t.cols cols)) :
    ∃ m', resizeFill m rows cols v = .ok () m' ∧ Shows m' ((Table.const rows cols (some v)).overlay t) := by
  obtain ⟨m', h1, -, h3⟩ := (resizeFill_ok (reach_good h) hs rows cols v).2.1 hr hc fun i j a b c d =>
    notInt_of fun k => hn i j k (by omega) (by omega)
  exact ⟨m', h1, h3⟩

example : Reach demo ∧ Shows demo demoTable ∧ demoTable.NoInt (min 3 4) (min 2 4) := ⟨demo_reach, demo_shows, demo_noint _ _⟩

/-- Resizing to no rows or no columns, and `clear()`, give a matrix of size 0 x 0. -/
theorem C43_resize_zero {m : Mtx D I S} (h : Reach m) {rows cols : Nat} (h0 : rows = 0 ∨ cols = 0) (v : Val D I S) :
    (∃ m', resize m rows cols = .ok () m' ∧ Shows m' (Table.const 0 0 none)) ∧
    (∃ m', resizeFill m rows cols v = .ok () m' ∧ Shows m' (Table.const 0 0 none)) ∧
    (∃ m', clear m = .ok () m' ∧ Shows m' (Table.const 0 0 none)) := by
  have hg := reach_good h
  refine ⟨?_, ?_, ?_⟩
  · obtain ⟨m', x, -, y⟩ := (resize_ok hg hg.shows rows cols).1 h0; exact ⟨m', x, y⟩
  · obtain ⟨m', x, -, y⟩ := (resizeFill_ok hg hg.shows rows cols v).1 h0; exact ⟨m', x, y⟩
  · obtain ⟨m', x, -, y⟩ := clear_ok hg; exact ⟨m', x, y⟩

example : Reach demo ∧ ((0 : Nat) = 0 ∨ (5 : Nat) = 0) := ⟨demo_reach, Or.inl rfl⟩

/-- With an integer in the part that stays, both forms of `resize` throw; nothing changes. -/
theorem C43_resize_throws {m : Mtx D I S} {t : Table D I S} (h : Reach m) (hs : Shows m t) {rows cols : Nat} (v : Val D I S)
    {i j : Nat} {k : I} (h1 : i < rows) (h2 : j < cols) (h3 : i < t.rows) (h4 : j < t.cols) (he : t.at_ i j = some (.int k)) :
    resize m rows cols = .err .general m ∧ resizeFill m rows cols v = .err .general m := by
  have hg := reach_good h
  have hint : ∃ i j, i < rows ∧ j < cols ∧ i < t.rows ∧ j < t.cols ∧ (t.at_ i j).isInt :=
    ⟨i, j, h1, h2, h3, h4, by rw [he]; trivial⟩
  exact ⟨(resize_ok hg hs rows cols).2.2 (by omega) (by omega) hint, (resizeFill_ok hg hs rows cols v).2.2 (by omega) (by omega) hint⟩

example : Reach demoInt ∧ Shows demoInt (demoTable.put 1 1 (some (.int 9))) ∧ (demoTable.put 1 1 (some (.int 9))).at_ 1 1 = some (.int 9) :=
  ⟨demoInt_reach, demoInt_shows, by decide⟩

/-- A matrix holding an integer cannot even be enlarged. -/
theorem C43_resize_fails : ∃ m : Mtx Nat Nat Nat, Reach m ∧ m.rows = 3 ∧ m.cols = 2 ∧ resize m 4 4 = .err .general m :=
  ⟨demoInt, demoInt_reach, by decide +kernel, by decide +kernel, by decide +kernel⟩

/-! ### C44 -/

/-- `walk(func)` shows all elements, column by column, in pieces of one type each. -/
theorem C44_walk {m : Mtx D I S} {t : Table D I S} (h : Reach m) (hs : Shows m t) :
    (∀ n ∈ walk m, n.Sound) ∧ (walk m).flatMap Node.elems = t.all := by
  obtain ⟨h1, h2⟩ := walk_ok (reach_good h)
  exact ⟨h1, cells_inj (h2.trans (all_cells hs))⟩

example : Reach demo ∧ Shows demo demoTable ∧ (walk demo).length = 5 := ⟨demo_reach, demo_shows, by decide +kernel⟩

/-- `walk(func, start, end)` shows the elements of the rectangle, column by column.  Partial: for
rectangles inside the matrix; the check lets others through (`C44_bound_fails`). -/
theorem C44_walk_range_partial {m : Mtx D I S} {t : Table D I S} (h : Reach m) (hs : Shows m t) {r1 c1 r2 c2 : Nat}
    (h1 : r1 ≤ r2) (h2 : c1 ≤ c2) (h3 : r2 < t.rows) (h4 : c2 < t.cols) :
    ∃ ns, walkRange m r1 c1 r2 c2 = .ok ns m ∧ (∀ n ∈ ns, n.Sound) ∧ ns.flatMap Node.elems = t.region r1 c1 r2 c2 :=
  walkRange_ok (reach_good h) hs h1 h2 h3 h4

example : Reach demo ∧ Shows demo demoTable ∧ 1 < demoTable.rows ∧ 1 < demoTable.cols :=
  ⟨demo_reach, demo_shows, by decide, by decide⟩

omit [DecidableEq D] [DecidableEq I] [DecidableEq S] in
/-- Rectangles the code does refuse. -/
theorem C44_range_refused {m : Mtx D I S} {t : Table D I S} (hs : Shows m t) {r1 c1 r2 c2 : Nat}
    (h : r2 < r1 ∨ c2 < c1 ∨ t.rows < r2 ∨ t.cols < c2) : walkRange m r1 c1 r2 c2 = .err .size m := by
  unfold walkRange
  by_cases h0 : r2 < r1 ∨ c2 < c1
  · rw [if_pos h0]
  · rw [if_neg h0, if_pos (by rw [hs.1, hs.2.1]; omega)]

example : Shows demo demoTable ∧ ((2 : Nat) < 0 ∨ (0 : Nat) < 0 ∨ demoTable.rows < 4 ∨ demoTable.cols < 1) :=
  ⟨demo_shows, by decide⟩

/-- A rectangle that ends one column behind the matrix is not refused: the walk then reads a block
that does not exist.  One that ends one row behind it shows elements of the next column. -/
theorem C44_bound_fails :
    (∃ m : Mtx Nat Nat Nat, Reach m ∧ m.rows = 3 ∧ m.cols = 2 ∧ walkRange m 0 0 0 2 = .ub) ∧
    (∃ (m : Mtx Nat Nat Nat) (ns : List (Node Nat Nat Nat)), Reach m ∧ m.rows = 3 ∧ m.cols = 2 ∧ walkRange m 2 0 3 0 = .ok ns m ∧
      ns.flatMap Node.elems = [some (.str 7), some (.str 8)]) :=
  ⟨⟨demo, demo_reach, by decide +kernel, by decide +kernel, by decide +kernel⟩,
    ⟨demo, (match walkRange demo 2 0 3 0 with | .ok ns _ => ns | _ => []), demo_reach, by decide +kernel, by decide +kernel,
      by decide +kernel, by decide +kernel⟩⟩

/-- `walk(func, right)` shows all elements of two matrices of one size side by side; matrices of
different sizes are refused. -/
theorem C44_walk_with {m r : Mtx D I S} {t u : Table D I S} (h : Reach m) (hs : Shows m t) (h' : Reach r) (hs' : Shows r u) :
    (t.rows = u.rows → t.cols = u.cols → ∃ ns, walkWith m r = .ok ns m ∧
      (∀ n ∈ ns, n.1.Sound ∧ n.2.Sound ∧ n.1.size = n.2.size) ∧
      (ns.flatMap fun n => n.1.elems) = t.all ∧ (ns.flatMap fun n => n.2.elems) = u.all) ∧
    ((t.rows ≠ u.rows ∨ t.cols ≠ u.cols) → walkWith m r = .err .size m) := by
  constructor
  · intro e1 e2
    obtain ⟨ns, a, b, c, d⟩ := walkWith_ok (reach_good h) (reach_good h') (by rw [hs.1, hs'.1, e1]) (by rw [hs.2.1, hs'.2.1, e2])
    exact ⟨ns, a, b, cells_inj (c.trans (all_cells hs)), cells_inj (d.trans (all_cells hs'))⟩
  · intro e
    unfold walkWith
    rw [if_pos (by rw [hs.1, hs.2.1, hs'.1, hs'.2.1]; exact e)]

example : Reach demo ∧ Shows demo demoTable ∧ Reach demoInt ∧ Shows demoInt (demoTable.put 1 1 (some (.int 9))) ∧
    Reach demo2 ∧ Shows demo2 (Table.const 2 3 (some (.num 4))) ∧ demoTable.rows ≠ (Table.const 2 3 (some (.num 4)) : Table Nat Nat Nat).rows :=
  ⟨demo_reach, demo_shows, demoInt_reach, demoInt_shows, demo2_reach, demo2_shows, by decide⟩

/-- `walk(func, right, start, end)`.  Partial: for rectangles inside both matrices, as above. -/
theorem C44_walk_range_with_partial {m r : Mtx D I S} {t u : Table D I S} (h : Reach m) (hs : Shows m t) (h' : Reach r) (hs' : Shows r u)
    {r1 c1 r2 c2 : Nat} (h1 : r1 ≤ r2) (h2 : c1 ≤ c2) (h3 : r2 < t.rows) (h4 : c2 < t.cols) (h5 : r2 < u.rows) (h6 : c2 < u.cols) :
    ∃ ns, walkRangeWith m r r1 c1 r2 c2 = .ok ns m ∧ (∀ n ∈ ns, n.1.Sound ∧ n.2.Sound ∧ n.1.size = n.2.size) ∧
      (ns.flatMap fun n => n.1.elems) = t.region r1 c1 r2 c2 ∧ (ns.flatMap fun n => n.2.elems) = u.region r1 c1 r2 c2 :=
  walkRangeWith_ok (reach_good h) hs (reach_good h') hs' h1 h2 h3 h4 h5 h6

example : Reach demo ∧ Shows demo demoTable ∧ Reach demo2 ∧ Shows demo2 (Table.const 2 3 (some (.num 4))) ∧
    1 < demoTable.rows ∧ 1 < demoTable.cols := ⟨demo_reach, demo_shows, demo2_reach, demo2_shows, by decide, by decide⟩

end Mdds.Mtm
