import Verif.Quad.Remove3

/-!
Properties C46-C49 of `point_quad_tree`.

`Holds t m`: the nodes of `t` store exactly the finite map `m` from points to data
(Spec.lean).  `Reachable t`: `t` results from some sequence of `insert`, `remove` and
`clear` calls that did not throw, starting from an empty tree.
-/
namespace Mdds.Quad

variable {V : Type}

/-- A tree of five points used in the examples below. -/
def demo : Tree Nat :=
  insertPt 3 9 5 (insertPt 12 12 4 (insertPt 2 3 3 (insertPt 20 1 2 (insertPt 10 10 1 .nil))))

theorem demo_reachable : Reachable demo :=
  ⟨[.insert 10 10 1, .insert 20 1 2, .insert 2 3 3, .insert 12 12 4, .insert 3 9 5], rfl⟩

/-- Every reachable tree holds some finite map, so `Holds` is never an empty hypothesis. -/
theorem holds_exists {t : Tree V} (h : Reachable t) : Holds t (fun x y => findNode x y t) :=
  ⟨wf_nodup (reachable_wf h), fun x y d => ((findNode_iff (reachable_wf h) x y d)).symm⟩

theorem holds_iff {t : Tree V} (h : Reachable t) {m : PMap V} (hm : Holds t m) (x y : Int) :
    findNode x y t = m x y := by
  cases e : m x y with
  | none =>
    cases e' : findNode x y t with
    | none => rfl
    | some d =>
      rw [findNode_iff (reachable_wf h), hm.2, e] at e'; cases e'
  | some d => rw [findNode_iff (reachable_wf h), hm.2]; exact e

theorem reachable_insert {t : Tree V} (h : Reachable t) (x y : Int) (d : V) :
    Reachable (insertPt x y d t) := by
  obtain ⟨os, h⟩ := h
  refine ⟨os ++ [.insert x y d], ?_⟩
  have gen : ∀ (os : List (Op V)) (s : Tree V), runOps s os = .ok t →
      runOps s (os ++ [.insert x y d]) = .ok (insertPt x y d t) := by
    intro os
    induction os with
    | nil => intro s hs; simp only [runOps, Outcome.ok.injEq] at hs; subst hs; rfl
    | cons o os ih =>
      intro s hs
      simp only [runOps, List.cons_append] at hs ⊢
      cases e : o.run s with
      | ok u => rw [e] at hs; simp only [Outcome.bind_ok] at hs ⊢; exact ih u hs
      | err => rw [e] at hs; simp at hs
      | ub => rw [e] at hs; simp at hs
  exact gen os _ h

/-! ### C46 -/

/-- C46: a region search reports exactly the stored points inside the closed rectangle, each
once, whatever calls built the tree. -/
theorem C46_search {t : Tree V} (h : Reachable t) {m : PMap V} (hm : Holds t m)
    (x1 y1 x2 y2 : Int) :
    Lists (searchRegion x1 y1 x2 y2 t)
      (fun x y => if x1 ≤ x ∧ x ≤ x2 ∧ y1 ≤ y ∧ y ≤ y2 then m x y else none) := by
  rw [search_eq (reachable_wf h)]
  refine ⟨hm.1.filter _, fun x y d => ?_⟩
  rw [List.mem_filter, hm.2]
  by_cases hc : x1 ≤ x ∧ x ≤ x2 ∧ y1 ≤ y ∧ y ≤ y2 <;> simp [hc]

example : searchRegion 2 1 12 10 demo = [⟨10, 10, 1⟩, ⟨2, 3, 3⟩, ⟨3, 9, 5⟩] := by decide
example : Lists (searchRegion 2 1 12 10 demo)
    (fun x y => if 2 ≤ x ∧ x ≤ 12 ∧ 1 ≤ y ∧ y ≤ 10 then findNode x y demo else none) :=
  C46_search demo_reachable (holds_exists demo_reachable) ..

/-! ### C47 -/

/-- C47: `insert` stores the datum at its point, replacing a datum already there, and touches no
other point. -/
theorem C47_insert {t : Tree V} (h : Reachable t) {m : PMap V} (hm : Holds t m) (px py : Int)
    (d : V) : Holds (insertPt px py d t) (m.put px py d) := by
  have w := reachable_wf h
  refine ⟨wf_nodup (wf_insert w px py d), fun x y e => ?_⟩
  rw [mem_insert w, hm.2]
  unfold PMap.put
  by_cases hc : x = px ∧ y = py
  · obtain ⟨rfl, rfl⟩ := hc
    simp [eq_comm]
  · rw [if_neg hc]
    simp only [Pt.mk.injEq, hc, not_false_eq_true, and_true, or_iff_right_iff_imp]
    rintro ⟨rfl, rfl, _⟩
    exact absurd ⟨rfl, rfl⟩ hc

/-- C47: `find` returns the stored datum and throws `data_not_found` exactly when there is none. -/
theorem C47_find {t : Tree V} (h : Reachable t) {m : PMap V} (hm : Holds t m) (x y : Int) :
    find t x y = match m x y with
      | some d => .ok d
      | none => .err .dataNotFound := by
  unfold find; rw [holds_iff h hm]
  cases m x y <;> rfl

/-- C47: `size` is the number of stored points. -/
theorem C47_size {t : Tree V} {m : PMap V} (hm : Holds t m) {l : List (Pt V)} (hl : Lists l m) :
    size t = l.length := by
  rw [size_eq]
  refine List.Perm.length_eq ((List.perm_ext_iff_of_nodup hm.1 hl.1).2 (fun a => ?_))
  rw [show a = ⟨a.x, a.y, a.d⟩ from rfl, hm.2, hl.2]

/-- C47: `empty` says whether nothing is stored. -/
theorem C47_empty {t : Tree V} {m : PMap V} (hm : Holds t m) :
    empty t = true ↔ ∀ x y, m x y = none := by
  cases t with
  | nil =>
    simp only [empty, true_iff]
    intro x y
    cases e : m x y with
    | none => rfl
    | some d => rw [← hm.2] at e; simp at e
  | node x y d ok ne nw se sw =>
    simp only [empty, Bool.false_eq_true, false_iff]
    intro h
    have := (hm.2 x y d).1 (mem_node.2 (Or.inl rfl))
    rw [h x y] at this; cases this

/-- The calls of a history that only insert and clear. -/
def Op.builds : Op V → Bool
  | .remove _ _ => false
  | _ => true

/-- C47: after any sequence of `insert` and `clear` calls the tree holds exactly the map those
calls describe, and no call throws. -/
theorem C47_history (os : List (Op V)) (hb : ∀ o ∈ os, o.builds = true) :
    ∃ t, runOps .nil os = .ok t ∧ Holds t (specOps PMap.none os) := by
  have gen : ∀ (os : List (Op V)), (∀ o ∈ os, o.builds = true) → ∀ (s : Tree V) (m : PMap V),
      Reachable s → Holds s m → ∃ t, runOps s os = .ok t ∧ Holds t (specOps m os) := by
    intro os
    induction os with
    | nil => intro _ s m _ hm; exact ⟨s, rfl, hm⟩
    | cons o os ih =>
      intro hb s m hr hm
      have hb' := fun o ho => hb o (List.mem_cons_of_mem _ ho)
      cases o with
      | insert x y d =>
        exact ih hb' _ _ (reachable_insert hr x y d) (C47_insert hr hm x y d)
      | clear =>
        refine ih hb' .nil PMap.none ⟨[], rfl⟩ ⟨by simp, by simp [PMap.none]⟩
      | remove x y => exact absurd (hb _ (List.mem_cons_self ..)) (by simp [Op.builds])
  exact gen os hb .nil PMap.none ⟨[], rfl⟩ ⟨by simp, by simp [PMap.none]⟩

example : ∃ t, runOps .nil [.insert 1 2 'a', .insert 3 4 'b', .clear, .insert 1 2 'c',
    .insert 0 7 'd', .insert 1 2 'e'] = .ok t ∧ Holds t (specOps PMap.none
      [.insert 1 2 'a', .insert 3 4 'b', .clear, .insert 1 2 'c', .insert 0 7 'd',
        .insert 1 2 'e']) :=
  C47_history _ (by decide)

example : find demo 3 9 = .ok 5 ∧ find demo 9 3 = .err .dataNotFound ∧ size demo = 5 := by decide

/-! ### C48 -/

/-- C48: whatever tree `remove` returns with, the point is gone, and every point still stored was
stored before with the same datum. -/
theorem C48_remove_sound {t t' : Tree V} (h : Reachable t) {m m' : PMap V} (hm : Holds t m)
    {px py : Int} (hr : removePt t px py = .ok t') (hm' : Holds t' m') :
    m' px py = none ∧ ∀ x y d, m' x y = some d → m x y = some d := by
  have R := removeFrom_spec (reachable_wf h) hr
  constructor
  · cases e : m' px py with
    | none => rfl
    | some d => rw [← hm'.2] at e; exact absurd ⟨rfl, rfl⟩ (R.gone _ e)
  · intro x y d hd
    rw [← hm'.2] at hd
    rw [← hm.2]
    exact R.sub hd

/-- C48, full characterisation: a `remove` that returns removes exactly the requested point if
and only if the node moved into its place is a child of the removed one.  (The property as stated
demands the left-hand side always; the right-hand side is what is missing.) -/
theorem C48_remove_exact_iff {t t' : Tree V} (h : Reachable t) {m : PMap V} (hm : Holds t m)
    {px py : Int} (hr : removePt t px py = .ok t') :
    Holds t' (m.del px py) ↔ DirectReplacement t px py := by
  have R := removeFrom_spec (reachable_wf h) hr
  constructor
  · intro hh
    by_contra hd
    obtain ⟨a, ha, hn, hout⟩ := R.lost hd
    apply hout
    rw [show a = ⟨a.x, a.y, a.d⟩ from rfl, hh.2, PMap.del, if_neg hn, ← hm.2]
    exact ha
  · intro hd
    refine ⟨wf_nodup R.wf, fun x y d => ?_⟩
    unfold PMap.del
    split
    · rename_i hc
      constructor
      · intro hin; exact absurd hc (R.gone _ hin)
      · intro hin; cases hin
    · rename_i hc
      rw [← hm.2]
      exact ⟨fun hin => R.sub hin, fun hin => R.exact hd _ hin hc⟩

/-- C48, the part that holds: when the replacement is a child of the removed node (in particular
for leaves and absent points), `remove` removes exactly the requested point. -/
theorem C48_remove_partial {t t' : Tree V} (h : Reachable t) {m : PMap V} (hm : Holds t m)
    {px py : Int} (hr : removePt t px py = .ok t') (hd : DirectReplacement t px py) :
    Holds t' (m.del px py) := (C48_remove_exact_iff h hm hr).2 hd

/-- C48: on a tree built by `insert` and `clear` calls, `remove` does not throw. -/
theorem C48_returns_partial (os : List (Op V)) (hb : ∀ o ∈ os, o.builds = true) {t : Tree V}
    (h : runOps .nil os = .ok t) (px py : Int) : ∃ t', removePt t px py = .ok t' := by
  refine removeFrom_ok (reachable_wf ⟨os, h⟩) ?_
  have gen : ∀ (os : List (Op V)), (∀ o ∈ os, o.builds = true) → ∀ s t : Tree V, AllOk s →
      runOps s os = .ok t → AllOk t := by
    intro os
    induction os with
    | nil =>
      intro _ s t ho hs
      simp only [runOps, Outcome.ok.injEq] at hs; exact hs ▸ ho
    | cons o os ih =>
      intro hb s t ho hs
      have hb' := fun o ho => hb o (List.mem_cons_of_mem _ ho)
      cases o with
      | insert x y d => exact ih hb' _ _ (allOk_insert ho x y d) hs
      | clear => exact ih hb' .nil _ trivial hs
      | remove x y => exact absurd (hb _ (List.mem_cons_self ..)) (by simp [Op.builds])
  exact gen os hb .nil t trivial h

/-- C48: removing a point that is not stored leaves the tree as it is. -/
theorem C48_absent {t : Tree V} (h : Reachable t) {m : PMap V} (hm : Holds t m) {px py : Int}
    (hn : m px py = none) : removePt t px py = .ok t := by
  have hf : findNode px py t = none := by rw [holds_iff h hm]; exact hn
  have gen : ∀ (t : Tree V) top, findNode px py t = none → removeFrom px py top t = .ok t := by
    intro t
    induction t with
    | nil => intro _ _; rfl
    | node x y d ok ne nw se sw ih1 ih2 ih3 ih4 =>
      intro top hf
      unfold findNode at hf
      unfold removeFrom
      split at hf
      · cases hf
      · rename_i hc
        rw [if_neg hc]
        cases hq : getQuadrant x y px py <;> simp only [hq] at hf ⊢
        · rw [ih1 false hf]; rfl
        · rw [ih2 false hf]; rfl
        · rw [ih3 false hf]; rfl
        · rw [ih4 false hf]; rfl
  exact gen t true hf

/-- C48, removal along a whole history: if every `remove` along the way found its replacement
among the children of the removed node, the tree holds the map the calls describe. -/
theorem C48_history_partial (os : List (Op V)) : ∀ {s t : Tree V} {m : PMap V}, Reachable s →
    Holds s m → runOps s os = .ok t →
    (∀ pre x y post u, os = pre ++ .remove x y :: post → runOps s pre = .ok u →
      DirectReplacement u x y) →
    Holds t (specOps m os) := by
  induction os with
  | nil =>
    intro s t m _ hm h _
    simp only [runOps, Outcome.ok.injEq] at h; exact h ▸ hm
  | cons o os ih =>
    intro s t m hr hm h hd
    have step : ∀ u, o.run s = .ok u → Reachable u := by
      intro u hu
      obtain ⟨ps, hps⟩ := hr
      refine ⟨ps ++ [o], ?_⟩
      have gen : ∀ (ps : List (Op V)) (r : Tree V), runOps r ps = .ok s →
          runOps r (ps ++ [o]) = .ok u := by
        intro ps
        induction ps with
        | nil =>
          intro r hr
          simp only [runOps, Outcome.ok.injEq] at hr
          simp only [List.nil_append, runOps, hr, hu]; rfl
        | cons p ps ih =>
          intro r hr
          simp only [runOps, List.cons_append] at hr ⊢
          cases e : p.run r with
          | ok v => rw [e] at hr; simp only [Outcome.bind_ok] at hr ⊢; exact ih v hr
          | err => rw [e] at hr; simp at hr
          | ub => rw [e] at hr; simp at hr
      exact gen ps _ hps
    have next : ∀ u, o.run s = .ok u → ∀ pre x y post v, os = pre ++ .remove x y :: post →
        runOps u pre = .ok v → DirectReplacement v x y := by
      intro u hu pre x y post v he hv
      refine hd (o :: pre) x y post v (by rw [he]; rfl) ?_
      simp only [runOps, hu]; exact hv
    cases o with
    | insert x y d =>
      exact ih (step _ rfl) (C47_insert hr hm x y d) h (next _ rfl)
    | clear =>
      exact ih (s := .nil) (m := PMap.none) (step _ rfl) ⟨by simp, by simp [PMap.none]⟩ h (next _ rfl)
    | remove x y =>
      simp only [runOps, Op.run] at h
      cases e : removePt s x y with
      | ok u =>
        rw [e] at h
        exact ih (step u e) (C48_remove_partial hr hm e (hd [] x y os s rfl rfl)) h (next u e)
      | err => rw [e] at h; simp at h
      | ub => rw [e] at h; simp at h

/-- C48 does not hold in general: removing (10,10) from the tree built by inserting (10,10),
(20,0) and (15,5) also loses (20,0). -/
theorem C48_remove_fails :
    ∃ (os : List (Op Nat)) (t t' : Tree Nat), runOps .nil os = .ok t ∧
      removePt t 10 10 = .ok t' ∧ find t 20 0 = .ok 2 ∧ find t' 20 0 = .err .dataNotFound :=
  ⟨[.insert 10 10 1, .insert 20 0 2, .insert 15 5 3], _, _, rfl, rfl, by decide, by decide⟩

/-- C48: a second `remove` can throw `general_error` although its point is stored: inserting
(0,0), (10,10), (20,20), removing (10,10) (the node at (20,20) moves up but keeps a parent
pointer that does not lead back to it), then removing (20,20). -/
theorem C48_throw_fails :
    ∃ (os : List (Op Nat)) (t : Tree Nat), runOps .nil os = .ok t ∧ find t 20 20 = .ok 3 ∧
      removePt t 20 20 = .err .general :=
  ⟨[.insert 0 0 1, .insert 10 10 2, .insert 20 20 3, .remove 10 10], _, rfl, by decide, by decide⟩

/-- A removal with a direct replacement that also re-inserts a cut subtree. -/
example : DirectReplacement demo 10 10 ∧
    ∃ t', removePt demo 10 10 = .ok t' ∧ Holds t' (PMap.del (fun x y => findNode x y demo) 10 10) :=
  have hd : DirectReplacement demo 10 10 := by
    intro q hq
    cases q <;> revert hq <;> decide
  ⟨hd, _, rfl, C48_remove_partial demo_reachable (holds_exists demo_reachable) rfl hd⟩

/-! ### C49 -/

theorem holds_insertAll (l : List (Pt V)) : ∀ {t : Tree V} {m : PMap V}, Reachable t → Holds t m →
    Reachable (insertAll t l) ∧
      Holds (insertAll t l) (l.foldl (fun m p => m.put p.x p.y p.d) m) := by
  induction l with
  | nil => intro t m hr hm; exact ⟨hr, hm⟩
  | cons p l ih =>
    intro t m hr hm
    exact ih (reachable_insert hr p.x p.y p.d) (C47_insert hr hm p.x p.y p.d)

/-- Inserting a listing of `m` one point at a time gives `m`. -/
theorem puts_lists (l : List (Pt V)) {m : PMap V} (hl : Lists l m) :
    l.foldl (fun m p => m.put p.x p.y p.d) PMap.none = m := by
  classical
  have gen : ∀ (l : List (Pt V)) (m0 : PMap V), (∀ p ∈ l, m p.x p.y = some p.d) →
      ∀ x y, (l.foldl (fun m p => m.put p.x p.y p.d) m0) x y
        = if ∃ d, (⟨x, y, d⟩ : Pt V) ∈ l then m x y else m0 x y := by
    intro l
    induction l with
    | nil => intro m0 _ x y; simp
    | cons p l ih =>
      intro m0 hp x y
      rw [List.foldl_cons, ih _ (fun q hq => hp q (List.mem_cons_of_mem _ hq))]
      by_cases h1 : ∃ d, (⟨x, y, d⟩ : Pt V) ∈ l
      · rw [if_pos h1, if_pos]
        obtain ⟨d, hd⟩ := h1
        exact ⟨d, List.mem_cons_of_mem _ hd⟩
      · rw [if_neg h1]
        unfold PMap.put
        by_cases hc : x = p.x ∧ y = p.y
        · rw [if_pos hc, if_pos ⟨p.d, by rw [hc.1, hc.2]; exact List.mem_cons_self ..⟩, hc.1, hc.2]
          exact (hp p (List.mem_cons_self ..)).symm
        · rw [if_neg hc, if_neg]
          rintro ⟨d, hd⟩
          rcases List.mem_cons.1 hd with rfl | hd
          · exact hc ⟨rfl, rfl⟩
          · exact h1 ⟨d, hd⟩
  funext x y
  rw [gen l PMap.none (fun p hp => (hl.2 p.x p.y p.d).1 hp)]
  split
  · rfl
  · rename_i hn
    cases e : m x y with
    | none => rfl
    | some d => exact absurd ⟨d, (hl.2 x y d).2 e⟩ hn

/-- C49: a copy holds the same content. -/
theorem C49_copy {t : Tree V} {m : PMap V} (hm : Holds t m) : Reachable (copy t) ∧ Holds (copy t) m := by
  have := holds_insertAll (allData t) (t := .nil) (m := PMap.none) ⟨[], rfl⟩
    ⟨by simp, by simp [PMap.none]⟩
  rw [puts_lists (allData t) hm] at this
  exact this

/-- C49: assignment from another tree gives the destination the source's content and leaves every
other variable alone.  (`dst ≠ src` is missing from the property as stated.) -/
theorem C49_assign_partial (env : Nat → Tree V) {dst src : Nat} (hne : dst ≠ src) {m : PMap V}
    (hm : Holds (env src) m) :
    Holds (assign env dst src dst) m ∧ ∀ v, v ≠ dst → assign env dst src v = env v := by
  refine ⟨?_, fun v hv => by simp [assign, hv]⟩
  have : assign env dst src dst = copy (env src) := by simp [assign, copy, Ne.symm hne]
  rw [this]; exact (C49_copy hm).2

/-- C49 fails for self-assignment: the tree is cleared before it is read. -/
theorem C49_assign_fails :
    ∃ (t : Tree Nat) (x y : Int) (d : Nat), Reachable t ∧ find t x y = .ok d ∧
      find (assign (fun _ => t) 0 0 0) x y = .err .dataNotFound :=
  ⟨insertPt 1 2 7 .nil, 1, 2, 7, ⟨[.insert 1 2 7], rfl⟩, by decide, by decide⟩

section order
variable [LinearOrder V]

/-- The weak order of the sorter. -/
theorem le_iff (a b : Pt V) : ptLt b a = false ↔
    a.x < b.x ∨ (a.x = b.x ∧ (a.y < b.y ∨ (a.y = b.y ∧ a.d ≤ b.d))) := by
  unfold ptLt
  by_cases hx : b.x = a.x
  · by_cases hy : b.y = a.y
    · simp [hx, hy]
    · have : a.y ≠ b.y := fun h => hy h.symm
      simp [hx, hy, this]; omega
  · have : a.x ≠ b.x := fun h => hx h.symm
    simp [hx, this]; omega

/-- C49: two trees compare equal exactly when they store the same points with the same data. -/
theorem C49_equal {t u : Tree V} {m m' : PMap V} (hm : Holds t m) (hm' : Holds u m') :
    equals t u = true ↔ m = m' := by
  have tr : ∀ a b c : Pt V, ptLt b a = false → ptLt c b = false → ptLt c a = false := by
    intro a b c h1 h2
    rw [le_iff] at *
    rcases h1 with h1 | ⟨h1, h1' | ⟨h1', h1''⟩⟩ <;> rcases h2 with h2 | ⟨h2, h2' | ⟨h2', h2''⟩⟩
    all_goals first
      | (left; omega)
      | (right; refine ⟨by omega, Or.inl (by omega)⟩)
      | (right; refine ⟨by omega, Or.inr ⟨by omega, le_trans h1'' h2''⟩⟩)
  have tot : ∀ a b : Pt V, ptLt b a = false ∨ ptLt a b = false := by
    intro a b
    rw [le_iff, le_iff]
    rcases lt_trichotomy a.x b.x with h | h | h
    · exact Or.inl (Or.inl h)
    · rcases lt_trichotomy a.y b.y with h' | h' | h'
      · exact Or.inl (Or.inr ⟨h, Or.inl h'⟩)
      · rcases le_total a.d b.d with h'' | h''
        · exact Or.inl (Or.inr ⟨h, Or.inr ⟨h', h''⟩⟩)
        · exact Or.inr (Or.inr ⟨h.symm, Or.inr ⟨h'.symm, h''⟩⟩)
      · exact Or.inr (Or.inr ⟨h.symm, Or.inl h'⟩)
    · exact Or.inr (Or.inl h)
  have anti : ∀ a b : Pt V, ptLt b a = false → ptLt a b = false → a = b := by
    intro a b h1 h2
    rw [le_iff] at *
    have hx : a.x = b.x := by omega
    have hy : a.y = b.y := by omega
    have hd : a.d = b.d := le_antisymm
      (by rcases h1 with h1 | ⟨_, h1 | ⟨_, h1⟩⟩ <;> first | omega | exact h1)
      (by rcases h2 with h2 | ⟨_, h2 | ⟨_, h2⟩⟩ <;> first | omega | exact h2)
    cases a; cases b; simp_all
  have same : (allData t).Perm (allData u) ↔ m = m' := by
    rw [List.perm_ext_iff_of_nodup hm.1 hm'.1]
    constructor
    · intro h
      funext x y
      have key : ∀ d, m x y = some d ↔ m' x y = some d := by
        intro d; rw [← hm.2, ← hm'.2]; exact h _
      cases e : m x y with
      | none =>
        cases e' : m' x y with
        | none => rfl
        | some d => rw [← key, e] at e'; cases e'
      | some d => exact ((key d).1 e).symm
    · rintro rfl a
      rw [show a = ⟨a.x, a.y, a.d⟩ from rfl, hm.2, hm'.2]
  rw [← same]
  unfold equals equalsData
  constructor
  · intro h
    split at h
    · cases h
    · simp only [decide_eq_true_eq] at h
      have := List.perm_insertionSort (fun a b : Pt V => ptLt b a = false) (allData t)
      rw [h] at this
      exact this.symm.trans (List.perm_insertionSort _ _)
  · intro hp
    rw [if_neg (by simpa using hp.length_eq)]
    rw [decide_eq_true_eq]
    haveI : Std.Total (fun a b : Pt V => ptLt b a = false) := ⟨tot⟩
    haveI : IsTrans (Pt V) (fun a b : Pt V => ptLt b a = false) := ⟨tr⟩
    refine List.Perm.eq_of_pairwise (le := fun a b => ptLt b a = false) (fun a b _ _ => anti a b)
      (List.pairwise_insertionSort _ _) (List.pairwise_insertionSort _ _) ?_
    exact (List.perm_insertionSort _ _).trans (hp.trans (List.perm_insertionSort _ _).symm)

end order

example : equals (insertPt 3 4 1 (insertPt 1 2 0 .nil)) (insertPt 1 2 0 (insertPt 3 4 1 .nil)) = true ∧
    equals (insertPt 3 4 1 (insertPt 1 2 0 .nil)) (insertPt 1 2 1 (insertPt 3 4 1 .nil)) = false := by
  decide

end Mdds.Quad
