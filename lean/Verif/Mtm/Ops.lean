import Verif.Mtm.Lemmas

/-! # multi_type_matrix: single calls -/

namespace Mdds.Mtm
open Mdds.Mtv (St M WF Weak weak_ne weak_all contents contents_eq cells_length pointsTo Designates cellsOf Cell At Ty Blk EB
  bind_apply obind_ok getB_ap getB nBlocks_ap curSize_ap)

set_option linter.unusedSectionVars false
set_option linter.unusedSimpArgs false

variable {D I S : Type} [DecidableEq D] [DecidableEq I] [DecidableEq S]

/-- Cells that hold values of their type. -/
def TypedL (X : List (Cell (Val D I S))) : Prop := ∀ c ∈ X, ∃ e, c = cellOf e

theorem typed_arr (a : Arr D I S) : TypedL (cellsOf a.ty a.vals) := by
  intro c hc
  rw [arr_cells] at hc
  obtain ⟨v, -, rfl⟩ := List.mem_map.1 hc
  exact ⟨some v, rfl⟩

theorem typed_replicate (n : Nat) : TypedL (List.replicate n (none : Cell (Val D I S))) := by
  intro c hc
  rw [List.eq_of_mem_replicate hc]
  exact ⟨none, rfl⟩

theorem typed_val (v : Val D I S) : TypedL [some (v.ty, v)] := by
  intro c hc
  simp at hc; subst hc
  exact ⟨some v, rfl⟩

theorem Good.patch {m : Mtx D I S} (h : Good m) {s' : St (Val D I S)} {p : Nat} {X : List (Cell (Val D I S))}
    (hp : Patch m.store s' p X) (hX : TypedL X) : Good ⟨s', m.rows, m.cols⟩ := by
  refine ⟨hp.wf, by simp only [hp.len]; exact h.len, fun q c hc => ?_⟩
  simp only [hp.get] at hc
  split at hc
  · exact hX c (List.mem_of_getElem? hc)
  · exact h.typed q c hc

theorem Good.cur {m : Mtx D I S} (h : Good m) : m.store.cur = m.rows * m.cols := by rw [← wf_len h.wf, h.len]

theorem empty_iff {m : Mtx D I S} {t : Table D I S} (hg : Good m) (hs : Shows m t) :
    empty m = true ↔ t.rows * t.cols = 0 := by
  rw [← hs.1, ← hs.2.1, ← hg.cur, hg.wf.cur]
  have ht := hg.wf.tile
  simp only [empty]
  cases hb : m.store.blocks with
  | nil => simp [Mtv.total]
  | cons b bs =>
    rw [hb] at ht
    have := ht.2.1.1
    simp [Mtv.total]
    omega

theorem onStore_ok {β : Type} {m : Mtx D I S} {x : M (Val D I S) β} {b : β} {s : St (Val D I S)}
    (h : x m.store = .ok (b, s)) : onStore m x = .ok b ⟨s, m.rows, m.cols⟩ := by
  simp [onStore, h]

theorem onStore_err {β : Type} {m : Mtx D I S} {x : M (Val D I S) β} {e : Err} {s : St (Val D I S)}
    (h : x m.store = .err e s) : onStore m x = .err e ⟨s, m.rows, m.cols⟩ := by
  simp [onStore, h]

/-- A call whose result is dropped. -/
theorem drop_ok {α β : Type} {x : M α β} {s s' : St α} {b : β} (h : x s = .ok (b, s')) :
    (do let _ ← x; M.pure () : M α Unit) s = .ok ((), s') := by
  simp [bind_apply, h, obind_ok, M.pure]

theorem drop_err {α β : Type} {x : M α β} {s s' : St α} {e : Err} (h : x s = .err e s') :
    (do let _ ← x; M.pure () : M α Unit) s = .err e s' := by
  simp [bind_apply, h, Mtv.Res.bind]

/-! ### Construction -/

theorem good_mk0 : Good (mk0 : Mtx D I S) ∧ Shows (mk0 : Mtx D I S) (Table.const 0 0 none) := by
  have hw : WF Weak (Mtv.mk0 : St (Val D I S)) := Mtv.wf_weaken (Mtv.ctor_wf .default rfl)
  have hs : Shows (mk0 : Mtx D I S) (Table.const 0 0 none) :=
    ⟨rfl, rfl, rfl, fun i j hi hj => by simp [Table.const] at hi⟩
  exact ⟨hs.good hw, hs⟩

theorem shows_fill {s : St (Val D I S)} {r c : Nat} {e : Elem D I S} (h : contents s = List.replicate (r * c) (cellOf e)) :
    Shows ⟨s, r, c⟩ (Table.const r c e) := by
  refine ⟨rfl, rfl, by simp [h], fun i j hi hj => ?_⟩
  simp only [Table.const] at hi hj ⊢
  rw [h, List.getElem?_replicate, if_pos (pos_lt hi hj)]

theorem good_sized (r c : Nat) : Good (mkSize r c : Mtx D I S) ∧ Shows (mkSize r c : Mtx D I S) (Table.const r c none) := by
  have hw : WF Weak (Mtv.mkSize (r * c) : St (Val D I S)) := Mtv.wf_weaken (Mtv.ctor_wf (.sized (r * c)) rfl)
  obtain ⟨s, h1, h2⟩ := Mtv.C28_construct (.sized (r * c) : Mtv.Ctor (Val D I S))
  have hs : Shows (mkSize r c : Mtx D I S) (Table.const r c none) := shows_fill (by cases h1; exact h2)
  exact ⟨hs.good hw, hs⟩

theorem good_fill (r c : Nat) (v : Val D I S) :
    ∃ m, mkFill r c v = .ok m ∧ Good m ∧ Shows m (Table.const r c (some v)) := by
  have := Mtv.C28_construct (.range (r * c) v.ty (List.replicate (r * c) v) : Mtv.Ctor (Val D I S))
  by_cases h0 : r * c = 0
  · simp only [Mtv.Ctor.spec, if_pos h0] at this
    obtain ⟨s, h1, h2⟩ := this
    have hw := Mtv.wf_weaken (Mtv.ctor_wf _ h1)
    have hs : Shows ⟨s, r, c⟩ (Table.const r c (some v)) := shows_fill (by rw [h2, h0]; rfl)
    exact ⟨⟨s, r, c⟩, by simp only [Mtv.Ctor.run] at h1; simp [mkFill, h1, Outcome.map], hs.good hw, hs⟩
  · simp only [Mtv.Ctor.spec, if_neg h0, List.length_replicate, if_true] at this
    obtain ⟨s, h1, h2⟩ := this
    have hw := Mtv.wf_weaken (Mtv.ctor_wf _ h1)
    have hs : Shows ⟨s, r, c⟩ (Table.const r c (some v)) := shows_fill (by rw [h2]; simp [cellsOf])
    exact ⟨⟨s, r, c⟩, by simp only [Mtv.Ctor.run] at h1; simp [mkFill, h1, Outcome.map], hs.good hw, hs⟩

/-- The table an array describes, column by column. -/
def arrTable (rows cols : Nat) (a : Arr D I S) : Table D I S := ⟨rows, cols, fun i j => a.vals[rows * j + i]?⟩

theorem good_arr (r c : Nat) (a : Arr D I S) :
    ((r * c = 0 ∨ r * c = a.vals.length) → ∃ m, mkArr r c a = .ok m ∧ Good m ∧ Shows m (arrTable r c a)) ∧
    (¬ (r * c = 0 ∨ r * c = a.vals.length) → mkArr r c a = .err .invalidArg) := by
  have := Mtv.C28_construct (.range (r * c) a.ty a.vals : Mtv.Ctor (Val D I S))
  by_cases h0 : r * c = 0
  · simp only [Mtv.Ctor.spec, if_pos h0] at this
    obtain ⟨s, h1, h2⟩ := this
    have hw := Mtv.wf_weaken (Mtv.ctor_wf _ h1)
    have hs : Shows ⟨s, r, c⟩ (arrTable r c a) :=
      ⟨rfl, rfl, by simp [h2, h0], fun i j hi hj => by have := pos_lt hi hj; simp only [arrTable] at this; omega⟩
    exact ⟨fun _ => ⟨⟨s, r, c⟩, by simp only [Mtv.Ctor.run] at h1; simp [mkArr, h1, Outcome.map], hs.good hw, hs⟩,
      fun h => (h (Or.inl h0)).elim⟩
  · by_cases hl : r * c = a.vals.length
    · simp only [Mtv.Ctor.spec, if_neg h0, if_pos hl] at this
      obtain ⟨s, h1, h2⟩ := this
      have hw := Mtv.wf_weaken (Mtv.ctor_wf _ h1)
      have hs : Shows ⟨s, r, c⟩ (arrTable r c a) := by
        refine ⟨rfl, rfl, by simp [h2, hl, cellsOf], fun i j hi hj => ?_⟩
        have := pos_lt hi hj
        simp only [arrTable] at this ⊢
        simp only [h2, arr_cells, List.getElem?_map]
        rw [List.getElem?_eq_getElem (by omega)]
        rfl
      exact ⟨fun _ => ⟨⟨s, r, c⟩, by simp only [Mtv.Ctor.run] at h1; simp [mkArr, h1, Outcome.map], hs.good hw, hs⟩,
        fun h => (h (Or.inr hl)).elim⟩
    · simp only [Mtv.Ctor.spec, if_neg h0, if_neg hl, Mtv.Ctor.run] at this
      exact ⟨fun h => by rcases h with h | h <;> contradiction, fun _ => by simp [mkArr, this, Outcome.map]⟩

/-! ### Replacing elements -/

theorem shows_put {m : Mtx D I S} {t : Table D I S} (hs : Shows m t) {r c : Nat} (hr : r < t.rows)
    {s' : St (Val D I S)} {e : Elem D I S} (hp : Patch m.store s' (m.pos r c) [cellOf e]) :
    Shows ⟨s', m.rows, m.cols⟩ (t.put r c e) := by
  refine shows_patch hs hp rfl rfl (fun i j hi hj _ => ?_)
  simp only [Mtx.pos, hs.1, Table.put]
  by_cases h : i = r ∧ j = c
  · obtain ⟨rfl, rfl⟩ := h
    rw [if_pos (by simp)]; simp
  · rw [if_neg (fun hh => h (pos_inj hr hi (by simp at hh; omega))), if_neg h]

theorem shows_run {m : Mtx D I S} {t : Table D I S} (hs : Shows m t) {r c : Nat}
    {s' : St (Val D I S)} {X : List (Cell (Val D I S))} {f : Nat → Elem D I S} (hp : Patch m.store s' (m.pos r c) X)
    (hX : ∀ k : Nat, k < X.length → X[k]? = some (cellOf (f k))) :
    Shows ⟨s', m.rows, m.cols⟩ (t.putRun r c X.length f) := by
  refine shows_patch hs hp rfl rfl (fun i j hi hj _ => ?_)
  simp only [Mtx.pos, hs.1, Table.putRun]
  split
  · rename_i h; exact hX _ (by omega)
  · rfl

theorem shows_col {m : Mtx D I S} {t : Table D I S} (hs : Shows m t) {c : Nat}
    {s' : St (Val D I S)} {X : List (Cell (Val D I S))} {f : Nat → Elem D I S} (hl : X.length ≤ t.rows)
    (hp : Patch m.store s' (m.rows * c) X)
    (hX : ∀ k : Nat, k < X.length → X[k]? = some (cellOf (f k))) :
    Shows ⟨s', m.rows, m.cols⟩ (t.putColumn c X.length f) := by
  refine shows_patch hs hp rfl rfl (fun i j hi hj _ => ?_)
  simp only [hs.1, Table.putColumn]
  by_cases h : j = c ∧ i < X.length
  · rw [if_pos ((pos_col hl hi).2 h), if_pos h]
    obtain ⟨rfl, h2⟩ := h
    rw [← hX i h2]; congr 1; omega
  · rw [if_neg (fun hh => h ((pos_col hl hi).1 hh)), if_neg h]

theorem arr_get (a : Arr D I S) : ∀ k : Nat, k < (cellsOf a.ty a.vals).length →
    (cellsOf a.ty a.vals)[k]? = some (cellOf (a.vals[k]?)) := by
  intro k hk
  rw [arr_cells] at hk ⊢
  simp only [List.length_map] at hk
  rw [List.getElem?_map, List.getElem?_eq_getElem hk]; rfl

theorem rep_get (n : Nat) : ∀ k : Nat, k < (List.replicate n (none : Cell (Val D I S))).length →
    (List.replicate n (none : Cell (Val D I S)))[k]? = some (cellOf none) := by
  intro k hk
  simp only [List.length_replicate] at hk
  simp [List.getElem?_replicate, hk]

theorem in_store {m : Mtx D I S} {t : Table D I S} (hs : Shows m t) {r c : Nat} (hr : r < t.rows) (hc : c < t.cols) :
    m.pos r c < (contents m.store).length := by
  rw [hs.2.2.1, Mtx.pos, hs.1, hs.2.1]; exact pos_lt hr hc

theorem set_ok {m : Mtx D I S} {t : Table D I S} (hg : Good m) (hs : Shows m t) {r c : Nat} (hr : r < t.rows) (hc : c < t.cols)
    (v : Val D I S) : ∃ m', set m r c v = .ok () m' ∧ Good m' ∧ Shows m' (t.put r c (some v)) := by
  obtain ⟨i, s', h1, h2, -⟩ := set_patch hg.wf none (in_store hs hr hc) v.ty v
  have := shows_put hs hr (e := some v) h2
  exact ⟨_, onStore_ok (drop_ok h1), this.good h2.wf, this⟩

theorem set_good {m : Mtx D I S} (hg : Good m) (r c : Nat) (v : Val D I S) :
    ∃ m', (set m r c v).state = some m' ∧ Good m' := by
  by_cases hp : m.pos r c < (contents m.store).length
  · obtain ⟨i, s', h1, h2, -⟩ := set_patch hg.wf none hp v.ty v
    exact ⟨_, congrArg _ (onStore_ok (drop_ok h1)), hg.patch h2 (typed_val v)⟩
  · exact ⟨_, congrArg _ (onStore_err (drop_err (set_far hg.wf (Nat.not_lt.1 hp) v.ty v))), hg⟩

theorem designates_in {m : Mtx D I S} (hg : Good m) {p : Nat × Nat} {q : Nat} (hd : Designates m.store p q)
    (hq : q < (contents m.store).length) : storePos p m.store = .ok (q, m.store) :=
  Mtv.logical_ok hd (by rwa [← wf_len hg.wf])

/-- The position a call with a position object returns. -/
theorem retPos {s : St (Val D I S)} {i q : Nat} (h : pointsTo s i q) :
    ∃ b, getB i s = .ok (b, s) ∧ Designates s (i, q - b.pos) q := by
  obtain ⟨b, h1, h2, h3⟩ := h
  refine ⟨b, by simp [getB_ap, h1], Or.inl ⟨b, h1, by simp only; omega, by simp only; omega⟩⟩

theorem setAt_ok {m : Mtx D I S} {t : Table D I S} (hg : Good m) (hs : Shows m t) {r c : Nat} (hr : r < t.rows) (hc : c < t.cols)
    {p : Nat × Nat} (hp : Designates m.store p (m.pos r c)) (v : Val D I S) :
    ∃ m' p', setAt m p v = .ok p' m' ∧ Good m' ∧ Shows m' (t.put r c (some v)) ∧ Designates m'.store p' (m.pos r c) := by
  have hin := in_store hs hr hc
  obtain ⟨i, s', h1, h2, h3⟩ := set_patch hg.wf (some (some p.1)) hin v.ty v
  have h4 := shows_put hs hr (e := some v) h2
  obtain ⟨b, h5, h6⟩ := retPos h3
  refine ⟨⟨s', m.rows, m.cols⟩, _, onStore_ok ?_, h4.good h2.wf, h4, h6⟩
  simp only [bind_apply, designates_in hg hp hin, obind_ok, h1, h5, M.pure]

theorem setEmptyAt_ok {m : Mtx D I S} {t : Table D I S} (hg : Good m) (hs : Shows m t) {r c : Nat} (hr : r < t.rows) (hc : c < t.cols)
    {p : Nat × Nat} (hp : Designates m.store p (m.pos r c)) :
    ∃ m' p', setEmptyAt m p = .ok p' m' ∧ Good m' ∧ Shows m' (t.put r c none) ∧ Designates m'.store p' (m.pos r c) := by
  have hin := in_store hs hr hc
  obtain ⟨i, s', h1, h2, h3⟩ := setEmpty_patch hg.wf (some (some p.1)) (Nat.le_refl _) hin
  have h4 := shows_put hs hr (e := none) (by simpa using h2)
  obtain ⟨b, h5, h6⟩ := retPos h3
  refine ⟨⟨s', m.rows, m.cols⟩, _, onStore_ok ?_, h4.good h2.wf, h4, h6⟩
  simp only [bind_apply, designates_in hg hp hin, obind_ok, h1, h5, M.pure]

theorem setRangeAt_ok {m : Mtx D I S} {t : Table D I S} (hg : Good m) (hs : Shows m t) {r c : Nat} {p : Nat × Nat}
    (hp : Designates m.store p (m.pos r c)) (a : Arr D I S) (ha : a.vals ≠ [])
    (hl : t.rows * c + r + a.vals.length ≤ t.rows * t.cols) :
    ∃ m' p', setRangeAt m p a = .ok p' m' ∧ Good m' ∧ Shows m' (t.putRun r c a.vals.length fun k => a.vals[k]?) ∧
      Designates m'.store p' (m.pos r c) := by
  have hv : 0 < a.vals.length := List.length_pos_iff.2 ha
  have hin : m.pos r c + a.vals.length ≤ (contents m.store).length := by
    rw [hs.2.2.1, Mtx.pos, hs.1, hs.2.1]; exact hl
  obtain ⟨i, s', h1, h2, h3⟩ := setRange_patch hg.wf (some (some p.1)) a.ty a.vals ha hin
  have h4 := shows_run hs h2 (arr_get a)
  obtain ⟨b, h5, h6⟩ := retPos h3
  refine ⟨⟨s', m.rows, m.cols⟩, _, onStore_ok ?_, h4.good h2.wf, by simpa [cellsOf] using h4, h6⟩
  simp only [bind_apply, designates_in hg hp (by omega), obind_ok, h1, h5, M.pure]

/-! ### Calls with any arguments keep the matrix sound -/

/-- Whatever the action does, the matrix stays sound. -/
def Tame {β : Type} (m : Mtx D I S) (x : M (Val D I S) β) : Prop :=
  match x m.store with
  | .ok p => Good ⟨p.2, m.rows, m.cols⟩
  | .err _ s => Good ⟨s, m.rows, m.cols⟩
  | .ub => True

theorem Tame.state {β : Type} {m m' : Mtx D I S} {x : M (Val D I S) β} (h : Tame m x)
    (hx : (onStore m x).state = some m') : Good m' := by
  unfold Tame at h
  unfold onStore at hx
  revert h hx
  cases x m.store with
  | ok p => intro h hx; cases hx; exact h
  | err e s => intro h hx; cases hx; exact h
  | ub => intro h hx; cases hx

/-- A sequence of two actions. -/
theorem Tame.bind {β γ : Type} {m : Mtx D I S} {x : M (Val D I S) β} {f : β → M (Val D I S) γ} (h : Tame m x)
    (hf : ∀ b s, x m.store = .ok (b, s) → Tame ⟨s, m.rows, m.cols⟩ (f b)) : Tame m (x >>= f) := by
  unfold Tame at h ⊢
  simp only [bind_apply]
  cases hx : x m.store with
  | ok p => exact hf p.1 p.2 hx
  | err e s => rw [hx] at h; exact h
  | ub => trivial

theorem tame_pure {β : Type} {m : Mtx D I S} (h : Good m) (b : β) : Tame m (M.pure b) := h

theorem tame_getB {m : Mtx D I S} (h : Good m) (i : Nat) : Tame m (getB i) := by
  unfold Tame
  rw [getB_ap]
  cases m.store.blocks[i]? with
  | none => trivial
  | some b => exact h

theorem tame_set {m : Mtx D I S} (hg : Good m) (at_ : At) (hat : at_ = none ∨ 0 < m.store.cur) (q : Nat) (v : Val D I S) :
    Tame m (Mtv.set at_ q v.ty v) := by
  unfold Tame
  by_cases hq : q < (contents m.store).length
  · obtain ⟨i, s', h1, h2, -⟩ := set_patch hg.wf at_ hq v.ty v
    rw [h1]; exact hg.patch h2 (typed_val v)
  · rw [Mtv.set_out hg.wf at_ (by rw [← wf_len hg.wf]; omega) hat v.ty v]; exact hg

theorem tame_setRange {m : Mtx D I S} (hg : Good m) (at_ : At) (q : Nat) (a : Arr D I S) :
    Tame m (Mtv.setRange at_ q a.ty a.vals) := by
  unfold Tame
  by_cases hv : a.vals = []
  · rw [hv, setRange_nil]; exact hg
  · by_cases hq : q + a.vals.length ≤ (contents m.store).length
    · obtain ⟨i, s', h1, h2, -⟩ := setRange_patch hg.wf at_ a.ty a.vals hv hq
      rw [h1]; exact hg.patch h2 (typed_arr a)
    · rw [setRange_far hg.wf at_ a.ty a.vals hv (by omega)]; exact hg

theorem tame_setEmpty {m : Mtx D I S} (hg : Good m) (at_ : At) (hat : at_ = none ∨ 0 < m.store.cur) (a b : Nat) :
    Tame m (Mtv.setEmpty at_ a b) := by
  unfold Tame
  by_cases hq : a ≤ b ∧ b < (contents m.store).length
  · obtain ⟨i, s', h1, h2, -⟩ := setEmpty_patch hg.wf at_ hq.1 hq.2
    rw [h1]; exact hg.patch h2 (typed_replicate _)
  · rw [Mtv.setEmpty_out hg.wf at_ (by rw [← wf_len hg.wf]; omega) hat]; exact hg

theorem tame_logical {m : Mtx D I S} (hg : Good m) (p : Nat × Nat) : Tame m (Mtv.logicalPosition p) :=
  (tame_getB hg p.1).bind fun b s hx => by
    rw [getB_ap] at hx
    cases hb : m.store.blocks[p.1]? with
    | none => rw [hb] at hx; cases hx
    | some b' => rw [hb] at hx; cases hx; exact hg

/-- A read of the position leaves the state and shows that the store is not empty. -/
theorem logical_cases {m : Mtx D I S} (hg : Good m) {p : Nat × Nat} {q : Nat} {s : St (Val D I S)}
    (h : Mtv.logicalPosition p m.store = .ok (q, s)) : s = m.store ∧ 0 < m.store.cur := by
  simp only [Mtv.logicalPosition, bind_apply, getB_ap] at h
  cases hb : m.store.blocks[p.1]? with
  | none => rw [hb] at h; cases h
  | some b =>
    rw [hb] at h
    simp only [obind_ok, M.pure] at h
    cases h
    have := Mtv.block_facts hg.wf hb
    exact ⟨rfl, by omega⟩

theorem setAt_tame {m : Mtx D I S} (hg : Good m) (p : Nat × Nat) (v : Val D I S) :
    Tame m (do
      let q ← storePos p
      let i ← Mtv.set (some (some p.1)) q v.ty v
      let b ← getB i
      M.pure (i, q - b.pos)) := by
  refine (tame_logical hg p).bind fun q s hx => ?_
  obtain ⟨rfl, hpos⟩ := logical_cases hg hx
  refine Tame.bind (tame_set hg _ (Or.inr hpos) q v) fun i s' hx' => ?_
  have hg' := tame_set hg (some (some p.1)) (Or.inr hpos) q v
  unfold Tame at hg'
  rw [hx'] at hg'
  refine Tame.bind (tame_getB hg' i) fun b s'' hx'' => ?_
  have := tame_getB hg' i
  unfold Tame at this
  rw [hx''] at this
  exact this

theorem setEmptyAt_tame {m : Mtx D I S} (hg : Good m) (p : Nat × Nat) :
    Tame m (do
      let q ← storePos p
      let i ← Mtv.setEmpty (some (some p.1)) q q
      let b ← getB i
      M.pure (i, q - b.pos)) := by
  refine (tame_logical hg p).bind fun q s hx => ?_
  obtain ⟨rfl, hpos⟩ := logical_cases hg hx
  refine Tame.bind (tame_setEmpty hg _ (Or.inr hpos) q q) fun i s' hx' => ?_
  have hg' := tame_setEmpty hg (some (some p.1)) (Or.inr hpos) q q
  unfold Tame at hg'
  rw [hx'] at hg'
  refine Tame.bind (tame_getB hg' i) fun b s'' hx'' => ?_
  have := tame_getB hg' i
  unfold Tame at this
  rw [hx''] at this
  exact this

theorem setRangeAt_tame {m : Mtx D I S} (hg : Good m) (p : Nat × Nat) (a : Arr D I S) :
    Tame m (do
      let q ← storePos p
      let i ← Mtv.setRange (some (some p.1)) q a.ty a.vals
      let b ← getB i
      M.pure (i, q - b.pos)) := by
  refine (tame_logical hg p).bind fun q s hx => ?_
  obtain ⟨rfl, hpos⟩ := logical_cases hg hx
  refine Tame.bind (tame_setRange hg _ q a) fun i s' hx' => ?_
  have hg' := tame_setRange hg (some (some p.1)) q a
  unfold Tame at hg'
  rw [hx'] at hg'
  refine Tame.bind (tame_getB hg' i) fun b s'' hx'' => ?_
  have := tame_getB hg' i
  unfold Tame at this
  rw [hx''] at this
  exact this

theorem Tame.drop {β : Type} {m : Mtx D I S} {x : M (Val D I S) β} (h : Tame m x) :
    Tame m (do let _ ← x; M.pure ()) := h.bind fun b s hx => by
  unfold Tame at h; rw [hx] at h; exact h

theorem setRowEmpty_tame (R row : Nat) : ∀ (n col : Nat) {m : Mtx D I S}, Good m → Tame m (setRowEmptyLoop R row col n)
  | 0, _, _, hg => tame_pure hg ()
  | n + 1, col, m, hg => by
    refine Tame.bind (tame_setEmpty hg none (Or.inl rfl) _ _) fun i s hx => ?_
    have hg' := tame_setEmpty hg none (Or.inl rfl) (R * col + row) (R * col + row)
    unfold Tame at hg'
    rw [hx] at hg'
    exact setRowEmpty_tame R row n (col + 1) hg'

/-! ### The remaining calls on elements -/

theorem setRange_ok {m : Mtx D I S} {t : Table D I S} (hg : Good m) (hs : Shows m t) {r c : Nat} (a : Arr D I S)
    (hl : t.rows * c + r + a.vals.length ≤ t.rows * t.cols) :
    ∃ m', setRange m r c a = .ok () m' ∧ Good m' ∧ Shows m' (t.putRun r c a.vals.length fun k => a.vals[k]?) := by
  by_cases ha : a.vals = []
  · refine ⟨m, ?_, hg, hs.congr rfl rfl ?_⟩
    · have : Mtv.setRange none (m.pos r c) a.ty a.vals m.store = .ok (m.store.blocks.length, m.store) := by
        rw [ha]; exact setRange_nil none a.ty
      exact onStore_ok (drop_ok this)
    · intro i j _ _
      simp only [Table.putRun, ha, List.length_nil, Nat.add_zero]
      rw [if_neg (by omega)]
  · have hin : m.pos r c + a.vals.length ≤ (contents m.store).length := by
      rw [hs.2.2.1, Mtx.pos, hs.1, hs.2.1]; exact hl
    obtain ⟨i, s', h1, h2, h3⟩ := setRange_patch hg.wf none a.ty a.vals ha hin
    have h4 := shows_run hs h2 (arr_get a)
    exact ⟨_, onStore_ok (drop_ok h1), h4.good h2.wf, by simpa [cellsOf] using h4⟩

theorem setEmpty_ok {m : Mtx D I S} {t : Table D I S} (hg : Good m) (hs : Shows m t) {r c : Nat} (hr : r < t.rows) (hc : c < t.cols) :
    ∃ m', setEmpty m r c = .ok () m' ∧ Good m' ∧ Shows m' (t.put r c none) := by
  obtain ⟨i, s', h1, h2, -⟩ := setEmpty_patch hg.wf none (Nat.le_refl _) (in_store hs hr hc)
  have h4 := shows_put hs hr (e := none) (by simpa using h2)
  exact ⟨_, onStore_ok (drop_ok h1), h4.good h2.wf, h4⟩

theorem setEmptyLen_ok {m : Mtx D I S} {t : Table D I S} (hg : Good m) (hs : Shows m t) {r c n : Nat} (hn : 0 < n)
    (hl : t.rows * c + r + n ≤ t.rows * t.cols) :
    ∃ m', setEmptyLen m r c n = .ok () m' ∧ Good m' ∧ Shows m' (t.putRun r c n fun _ => none) := by
  have hin : m.pos r c + n ≤ (contents m.store).length := by
    rw [hs.2.2.1, Mtx.pos, hs.1, hs.2.1]; exact hl
  obtain ⟨i, s', h1, h2, -⟩ := setEmpty_patch hg.wf none (a := m.pos r c) (b := m.pos r c + n - 1) (by omega) (by omega)
  have e : m.pos r c + n - 1 - m.pos r c + 1 = n := by omega
  rw [e] at h2
  have h4 := shows_run hs (f := fun _ => none) h2 (rep_get n)
  refine ⟨⟨s', m.rows, m.cols⟩, ?_, h4.good h2.wf, by simpa using h4⟩
  unfold setEmptyLen
  rw [if_neg (by omega)]
  exact onStore_ok (drop_ok h1)

theorem setColumnEmpty_ok {m : Mtx D I S} {t : Table D I S} (hg : Good m) (hs : Shows m t) {c : Nat} (hr : 0 < t.rows)
    (hc : c < t.cols) :
    ∃ m', setColumnEmpty m c = .ok () m' ∧ Good m' ∧ Shows m' (t.putColumn c t.rows fun _ => none) := by
  have hin := in_store hs (r := t.rows - 1) (by omega) hc
  simp only [Mtx.pos, hs.1] at hin
  obtain ⟨i, s', h1, h2, -⟩ := setEmpty_patch hg.wf none (a := t.rows * c + 0) (b := t.rows * c + (t.rows - 1)) (by omega) hin
  have e : t.rows * c + (t.rows - 1) - (t.rows * c + 0) + 1 = t.rows := by omega
  rw [e] at h2
  have h4 := shows_col hs (f := fun _ => none) (by simp) (by rw [hs.1]; exact h2) (rep_get t.rows)
  refine ⟨⟨s', m.rows, m.cols⟩, onStore_ok (drop_ok (b := i) ?_), h4.good h2.wf, by simpa using h4⟩
  simp only [Mtx.pos, hs.1]
  exact h1

theorem setRowEmptyLoop_ok {R C row : Nat} (hr : row < R) : ∀ (n col : Nat) {s : St (Val D I S)} {t : Table D I S},
    t.rows = R → t.cols = C → WF Weak s → Shows ⟨s, R, C⟩ t → col + n ≤ C →
    ∃ s', setRowEmptyLoop R row col n s = .ok ((), s') ∧ WF Weak s' ∧
      Shows ⟨s', R, C⟩ ⟨R, C, fun i j => if i = row ∧ col ≤ j ∧ j < col + n then none else t.at_ i j⟩
  | 0, col, s, t, e1, e2, hw, hs, _ => by
    refine ⟨s, rfl, hw, hs.congr e1.symm e2.symm fun i j _ _ => ?_⟩
    simp only
    rw [if_neg (by omega)]
  | n + 1, col, s, t, e1, e2, hw, hs, hn => by
    have hin := in_store hs (r := row) (c := col) (by omega) (by omega)
    obtain ⟨i, s1, h1, h2, -⟩ := setEmpty_patch hw none (Nat.le_refl _) hin
    simp only [Mtx.pos] at h1
    have h4 := shows_put hs (r := row) (c := col) (e := none) (by omega) (by simpa using h2)
    obtain ⟨s', h5, h6, h7⟩ := setRowEmptyLoop_ok hr n (col + 1) (t := t.put row col none) e1 e2 h2.wf h4 (by omega)
    refine ⟨s', by simp only [setRowEmptyLoop, bind_apply, h1, obind_ok, h5], h6, h7.congr rfl rfl fun i j hi hj => ?_⟩
    simp only [Table.put]
    by_cases h : i = row ∧ col ≤ j ∧ j < col + (n + 1)
    · rw [if_pos h]
      by_cases h' : i = row ∧ col + 1 ≤ j ∧ j < col + 1 + n
      · rw [if_pos h']
      · rw [if_neg h', if_pos (by omega)]
    · rw [if_neg h, if_neg (by omega), if_neg (by omega)]

theorem setRowEmpty_ok {m : Mtx D I S} {t : Table D I S} (hg : Good m) (hs : Shows m t) {r : Nat} (hr : r < t.rows) :
    ∃ m', setRowEmpty m r = .ok () m' ∧ Good m' ∧ Shows m' (t.emptyRow r) := by
  have e1 := hs.1
  obtain ⟨s', h1, h2, h3⟩ := setRowEmptyLoop_ok (R := m.rows) (C := m.cols) (row := r) (by omega) m.cols 0 (t := t) hs.1.symm hs.2.1.symm
    hg.wf hs (by omega)
  have h4 : Shows ⟨s', m.rows, m.cols⟩ (t.emptyRow r) := h3.congr hs.1.symm hs.2.1.symm fun i j hi hj => by
    simp only [Table.emptyRow] at hi hj ⊢
    by_cases h : i = r
    · rw [if_pos h, if_pos ⟨h, by omega, by omega⟩]
    · rw [if_neg h, if_neg (by omega)]
  exact ⟨_, onStore_ok h1, h4.good h2, h4⟩

theorem setColumn_ok {m : Mtx D I S} {t : Table D I S} (hg : Good m) (hs : Shows m t) {c : Nat} (hc : c < t.cols) (a : Arr D I S) :
    ∃ m', setColumn m c a = .ok () m' ∧ Good m' ∧ Shows m' (t.putColumn c (min a.vals.length t.rows) fun k => a.vals[k]?) := by
  have e1 := hs.1
  have hb : t.rows * c + t.rows ≤ t.rows * t.cols := by
    have : t.rows * (c + 1) ≤ t.rows * t.cols := Nat.mul_le_mul_left _ hc
    rwa [Nat.mul_succ] at this
  have conv : ∀ (n : Nat) (f g : Nat → Elem D I S), n ≤ t.rows → (∀ k, k < n → f k = g k) → ∀ i j, i < t.rows → j < t.cols →
      (t.putColumn c n g).at_ i j = (t.putRun 0 c n f).at_ i j := by
    intro n f g hn hfg i j hi hj
    simp only [Table.putColumn, Table.putRun, Nat.add_zero]
    by_cases h : j = c ∧ i < n
    · rw [if_pos h, if_pos ((pos_col hn hi).2 h)]
      obtain ⟨rfl, h2⟩ := h
      rw [← hfg i h2]; congr 1; omega
    · rw [if_neg h, if_neg (fun hh => h ((pos_col hn hi).1 hh))]
  unfold setColumn
  by_cases hl : a.vals.length ≤ m.rows
  · rw [if_pos hl]
    obtain ⟨m', h1, h2, h3⟩ := setRange_ok hg hs (r := 0) (c := c) a (by omega)
    refine ⟨m', h1, h2, h3.congr rfl rfl fun i j hi hj => ?_⟩
    rw [Nat.min_eq_left (by omega)]
    exact conv _ _ _ (by omega) (fun _ _ => rfl) i j hi hj
  · rw [if_neg hl]
    have hlen : (a.take m.rows).vals.length = t.rows := by simp; omega
    obtain ⟨m', h1, h2, h3⟩ := setRange_ok hg hs (r := 0) (c := c) (a.take m.rows) (by omega)
    refine ⟨m', h1, h2, h3.congr rfl rfl fun i j hi hj => ?_⟩
    rw [Nat.min_eq_right (by omega), hlen]
    refine conv _ _ _ (Nat.le_refl _) (fun k hk => ?_) i j hi hj
    rw [arr_take_vals, List.getElem?_take_of_lt (by omega)]

end Mdds.Mtm
