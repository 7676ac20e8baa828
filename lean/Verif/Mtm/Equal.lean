import Verif.Mtm.Props

/-!
Property C59: comparison of two matrices.
-/
namespace Mdds.Mtm
open Mdds.Mtv (St M WF Weak Strict strict_ne contents contents_eq cells_length bind_apply obind_ok At Ty)

variable {D I S : Type} [DecidableEq D] [DecidableEq I] [DecidableEq S]

/-- Calls that write single elements, empty elements, or rebuild the matrix element by element; no
range of values is written over others. -/
def MCall.single : MCall D I S → Bool
  | .set _ _ _ | .setEmpty _ _ | .setEmptyLen _ _ _ | .setColumnEmpty _ | .setRowEmpty _ | .transpose | .clear => true
  | _ => false

/-- Matrices reached by construction, copying and such calls. -/
inductive ReachSingle : Mtx D I S → Prop
  | default : ReachSingle Mtm.mk0
  | sized (r c : Nat) : ReachSingle (mkSize r c)
  | fill {m : Mtx D I S} (r c : Nat) (v : Val D I S) : mkFill r c v = .ok m → ReachSingle m
  | arr {m : Mtx D I S} (r c : Nat) (a : Arr D I S) : mkArr r c a = .ok m → ReachSingle m
  | call {m m' : Mtx D I S} (c : MCall D I S) : c.single = true → ReachSingle m → c.run m = some m' → ReachSingle m'
  | copied {m : Mtx D I S} : ReachSingle m → ReachSingle (copyOf m)

theorem ReachSingle.reach {m : Mtx D I S} (h : ReachSingle m) : Reach m := by
  induction h with
  | default => exact .default
  | sized r c => exact .sized r c
  | fill r c v h => exact .fill r c v h
  | arr r c a h => exact .arr r c a h
  | call c _ _ h ih => exact .call c ih h
  | copied _ ih => exact .copied ih

/-- The action leaves no two neighbouring blocks of one type. -/
def Neat {β : Type} (x : M (Val D I S) β) : Prop :=
  ∀ s, WF Strict s → match x s with
    | .ok p => WF Strict p.2
    | .err _ s' => WF Strict s'
    | .ub => True

omit [DecidableEq D] [DecidableEq I] [DecidableEq S] in
theorem Neat.bind {β γ : Type} {x : M (Val D I S) β} {f : β → M (Val D I S) γ} (h : Neat x) (hf : ∀ b, Neat (f b)) :
    Neat (x >>= f) := by
  intro s hs
  have := h s hs
  simp only [bind_apply]
  cases hx : x s with
  | ok p => rw [hx] at this; exact hf p.1 p.2 this
  | err e s => rw [hx] at this; exact this
  | ub => trivial

omit [DecidableEq D] [DecidableEq I] [DecidableEq S] in
theorem neat_pure {β : Type} (b : β) : Neat (M.pure b : M (Val D I S) β) := fun _ h => h

omit [DecidableEq D] [DecidableEq I] [DecidableEq S] in
theorem neat_other {β : Type} (t : St (Val D I S)) (x : M (Val D I S) β) : Neat (onOther t x) := by
  intro s hs
  unfold onOther
  cases x t <;> first | exact hs | trivial

theorem neat_set (q : Nat) (ty : Ty) (v : Val D I S) : Neat (Mtv.set none q ty v) := by
  intro s hs
  by_cases hq : q < s.cur
  · obtain ⟨r, s', h1, h2, -⟩ := Mtv.set_in strict_ne hs none hq ty v
    rw [h1]; exact h2.wf
  · rw [Mtv.set_out hs none (Nat.not_lt.1 hq) (Or.inl rfl)]; exact hs

theorem neat_setEmpty (a b : Nat) : Neat (Mtv.setEmpty none a b : M (Val D I S) Nat) := by
  intro s hs
  by_cases hq : a ≤ b ∧ b < s.cur
  · obtain ⟨r, s', h1, h2, -⟩ := Mtv.setEmpty_in strict_ne hs none hq.1 hq.2
    rw [h1]; exact h2.wf
  · rw [Mtv.setEmpty_out hs none (by omega) (Or.inl rfl)]; exact hs

theorem neat_rowEmpty (R row : Nat) : ∀ n col, Neat (setRowEmptyLoop R row col n : M (Val D I S) Unit)
  | 0, _ => neat_pure ()
  | n + 1, col => (neat_setEmpty _ _).bind fun _ => neat_rowEmpty R row n (col + 1)

theorem neat_one (m : Mtx D I S) (row col trows : Nat) : Neat (transposeOne m row col trows) := by
  refine (neat_other _ _).bind fun ty => ?_
  cases ty with
  | none => exact neat_pure ()
  | some t =>
    simp only
    split
    · refine (neat_other _ _).bind fun v => ?_
      cases v with
      | none => intro s _; trivial
      | some x => exact (neat_set _ _ _).bind fun _ => neat_pure ()
    · intro s hs; exact hs

theorem neat_row (m : Mtx D I S) (row trows : Nat) : ∀ n col, Neat (transposeRow m row trows col n)
  | 0, _ => neat_pure ()
  | n + 1, col => (neat_one m row col trows).bind fun _ => neat_row m row trows n (col + 1)

theorem neat_rows (m : Mtx D I S) (trows : Nat) : ∀ n row, Neat (transposeRows m trows row n)
  | 0, _ => neat_pure ()
  | n + 1, row => (neat_row m row trows m.cols 0).bind fun _ => neat_rows m trows n (row + 1)

omit [DecidableEq D] [DecidableEq I] [DecidableEq S] in
theorem Neat.state {β : Type} {m m' : Mtx D I S} {x : M (Val D I S) β} (h : Neat x) (hm : WF Strict m.store)
    (hx : (onStore m x).state = some m') : WF Strict m'.store := by
  have := h _ hm
  unfold onStore at hx
  revert this hx
  cases x m.store with
  | ok p => intro hx h; cases hx; exact h
  | err e s => intro hx h; cases hx; exact h
  | ub => intro hx h; cases hx

theorem run_neat {m m' : Mtx D I S} (hm : WF Strict m.store) {c : MCall D I S} (hc : c.single = true)
    (h : c.run m = some m') : WF Strict m'.store := by
  cases c with
  | set r c v => exact ((neat_set _ _ _).bind fun _ => neat_pure ()).state hm h
  | setEmpty r c => exact ((neat_setEmpty _ _).bind fun _ => neat_pure ()).state hm h
  | setEmptyLen r c n =>
    simp only [MCall.run, setEmptyLen] at h
    split at h
    · cases h; exact hm
    · exact ((neat_setEmpty _ _).bind fun _ => neat_pure ()).state hm h
  | setColumnEmpty c => exact ((neat_setEmpty _ _).bind fun _ => neat_pure ()).state hm h
  | setRowEmpty r => exact (neat_rowEmpty _ _ _ _).state hm h
  | transpose =>
    have := neat_rows m m.cols m.rows 0 _ (Mtv.ctor_wf (.sized (m.cols * m.rows)) rfl : WF Strict (mkSize m.cols m.rows : Mtx D I S).store)
    simp only [MCall.run, transpose] at h
    revert this h
    cases transposeRows m m.cols 0 m.rows (mkSize m.cols m.rows).store with
    | ok p => intro hx h; cases hx; exact h
    | err e s => intro hx h; cases hx; exact hm
    | ub => intro hx h; cases hx
  | clear =>
    obtain ⟨r, s', h1, h2⟩ := Mtv.clear_eff Strict _ _ _ _ _ m.store rfl hm
    simp only [MCall.run, clear, h1, MRes.state] at h
    cases h
    exact h2.wf
  | _ => cases hc

theorem single_wf {m : Mtx D I S} (h : ReachSingle m) : WF Strict m.store := by
  induction h with
  | default => exact Mtv.ctor_wf .default rfl
  | sized r c => exact Mtv.ctor_wf (.sized (r * c)) rfl
  | fill r c v h =>
    simp only [mkFill] at h
    cases hx : Mtv.mkRange (r * c) v.ty (List.replicate (r * c) v) with
    | ok s => rw [hx] at h; cases h; exact Mtv.ctor_wf (.range (r * c) v.ty (List.replicate (r * c) v)) hx
    | err e => rw [hx] at h; cases h
    | ub => rw [hx] at h; cases h
  | arr r c a h =>
    simp only [mkArr] at h
    cases hx : Mtv.mkRange (r * c) a.ty a.vals with
    | ok s => rw [hx] at h; cases h; exact Mtv.ctor_wf (.range (r * c) a.ty a.vals) hx
    | err e => rw [hx] at h; cases h
    | ub => rw [hx] at h; cases h
  | call c hc _ h ih => exact run_neat ih hc h
  | copied _ ih => exact copy_wf ih

/-! ### C59 -/

/-- Two tables a user cannot tell apart. -/
def Table.Same (t t' : Table D I S) : Prop :=
  t.rows = t'.rows ∧ t.cols = t'.cols ∧ ∀ i j, i < t.rows → j < t.cols → t.at_ i j = t'.at_ i j

omit [DecidableEq D] [DecidableEq I] [DecidableEq S] in
theorem same_contents {m m' : Mtx D I S} {t t' : Table D I S} (h : Shows m t) (h' : Shows m' t') (hs : t.Same t') :
    contents m.store = contents m'.store := by
  obtain ⟨e1, e2, e3⟩ := hs
  have hr : m.rows = m'.rows := by rw [h.1, h'.1, e1]
  have hc : m.cols = m'.cols := by rw [h.2.1, h'.2.1, e2]
  have hl : (contents m.store).length = (contents m'.store).length := by rw [h.2.2.1, h'.2.2.1, hr, hc]
  refine List.ext_getElem? fun q => ?_
  by_cases hq : q < t.rows * t.cols
  · obtain ⟨h1, h2, h3⟩ := cell_pos hq
    have a := h.2.2.2 _ _ h1 h2
    have b := h'.2.2.2 (q % t.rows) (q / t.rows) (by omega) (by omega)
    rw [← e1] at b
    rw [h3] at a b
    rw [a, b, e3 _ _ h1 h2]
  · have : (contents m.store).length = t.rows * t.cols := by rw [h.2.2.1, h.1, h.2.1]
    rw [List.getElem?_eq_none (by omega), List.getElem?_eq_none (by omega)]

/-- Matrices that compare equal show the same table. -/
theorem C59_equal_sound {m m' : Mtx D I S} {t t' : Table D I S} (h : Shows m t) (h' : Shows m' t') (he : equals m m' = true) :
    t.Same t' := by
  simp only [equals, Bool.and_eq_true, beq_iff_eq] at he
  obtain ⟨⟨e1, e2⟩, e3⟩ := he
  have e := Mtv.C31_equal_sound e3
  obtain ⟨a1, a2, -, a4⟩ := h
  obtain ⟨b1, b2, -, b4⟩ := h'
  refine ⟨by omega, by omega, fun i j hi hj => cellOf_inj (Option.some.inj ?_)⟩
  have hb := b4 i j (by omega) (by omega)
  rw [← a4 i j hi hj, ← hb, e, show t.rows = t'.rows by omega]

example : Shows demo demoTable ∧ equals demo demo = true := ⟨demo_shows, by decide +kernel⟩

/-- Comparison decides whether the tables are the same.  Partial: for matrices that were constructed
and then changed element by element; after a range of values was written it can fail
(`C59_equal_fails`). -/
theorem C59_equal_partial {m m' : Mtx D I S} {t t' : Table D I S} (hm : ReachSingle m) (hm' : ReachSingle m')
    (h : Shows m t) (h' : Shows m' t') : equals m m' = true ↔ t.Same t' := by
  refine ⟨C59_equal_sound h h', fun hs => ?_⟩
  have e := same_contents h h' hs
  have w := single_wf hm
  have w' := single_wf hm'
  simp only [equals, Bool.and_eq_true, beq_iff_eq]
  refine ⟨⟨by rw [h.1, h'.1, hs.1], by rw [h.2.1, h'.2.1, hs.2.1]⟩, ?_⟩
  rw [contents_eq, contents_eq] at e
  refine (Mtv.equals_iff _ _).2 ⟨by rw [← cells_length w, ← cells_length w', e], ?_⟩
  exact Mtv.canonical_unique _ _ 0 w.tile w'.tile w.sep w'.sep e

/-- The table of `demo` built in another order, with a detour. -/
def demo' : Mtx Nat Nat Nat :=
  (runAll [.set 2 1 (.num 5), .set 0 0 (.num 1), .set 1 1 (.bool false), .set 0 1 (.str 8), .set 1 0 (.bool true),
    .setEmpty 1 1, .set 2 0 (.str 7)] (mkSize 3 2)).getD mk0

omit [DecidableEq D] [DecidableEq I] [DecidableEq S] in
theorem single_run [DecidableEq D] [DecidableEq I] [DecidableEq S] : ∀ (cs : List (MCall D I S)) {m m' : Mtx D I S}, (∀ c ∈ cs, c.single = true) → ReachSingle m →
    runAll cs m = some m' → ReachSingle m'
  | [], _, _, _, h, e => by cases e; exact h
  | c :: cs, m, m', hc, h, e => by
    simp only [runAll] at e
    cases hr : c.run m with
    | none => rw [hr] at e; cases e
    | some x =>
      rw [hr] at e
      exact single_run cs (fun d hd => hc d (List.mem_cons_of_mem _ hd)) (.call c (hc c List.mem_cons_self) h hr) e

example : ReachSingle demo ∧ ReachSingle demo' ∧ Shows demo demoTable ∧ Shows demo' demoTable ∧ demo ≠ demo' :=
  ⟨single_run _ (by decide) (.sized 3 2) (show runAll [.set 0 0 (.num 1), .set 1 0 (.bool true), .set 2 0 (.str 7), .set 0 1 (.str 8), .set 2 1 (.num 5)] (mkSize 3 2) = some demo by decide +kernel),
   single_run _ (by decide) (.sized 3 2) (show runAll [.set 2 1 (.num 5), .set 0 0 (.num 1), .set 1 1 (.bool false), .set 0 1 (.str 8), .set 1 0 (.bool true),
    .setEmpty 1 1, .set 2 0 (.str 7)] (mkSize 3 2) = some demo' by decide +kernel),
   demo_shows, shown_iff (by decide +kernel), by decide +kernel⟩

/-- A column with a string between two numbers, over which two numbers are written. -/
def patched : Mtx Nat Nat Nat :=
  (runAll [.set 0 0 (.num 1), .set 1 0 (.str 7), .set 2 0 (.num 3), .setRange 0 0 (.nums [1, 2])] (mkSize 3 1)).getD mk0

theorem patched_reach : Reach patched :=
  reach_run [.set 0 0 (.num 1), .set 1 0 (.str 7), .set 2 0 (.num 3), .setRange 0 0 (.nums [1, 2])] (.sized 3 1) (by decide +kernel)

/-- The same column from one array. -/
def whole : Mtx Nat Nat Nat :=
  match mkArr 3 1 (.nums [1, 2, 3]) with
  | .ok m => m
  | _ => mk0

/-- The full statement is false: two matrices that show the same table compare unequal, because the
store of one keeps two neighbouring blocks of numbers. -/
theorem C59_equal_fails : ∃ (m m' : Mtx Nat Nat Nat) (t : Table Nat Nat Nat), Reach m ∧ Reach m' ∧ Shows m t ∧ Shows m' t ∧
    equals m m' = false := by
  have h : mkArr 3 1 (.nums [1, 2, 3] : Arr Nat Nat Nat) = .ok whole := by decide +kernel
  exact ⟨patched, whole, ⟨3, 1, fun i _ => some (.num (i + 1))⟩, patched_reach, .arr 3 1 _ h, shown_iff (by decide +kernel),
    shown_iff (by decide +kernel), by decide +kernel⟩

end Mdds.Mtm
