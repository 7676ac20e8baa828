import Verif.FST.StepLemmas

/-!
# flat_segment_tree: property theorems C01 - C10

The function a container represents is `valueAt leaves`; `specInsert`, `specShiftLeft`,
`specShiftRight` (file `Spec.lean`) say what each operation does to it.  `Reachable dv lo hi init st`
ranges over all histories of all operations.  A history stops at undefined behaviour, and
`no_ub_partial` says when that cannot happen.
-/
namespace Mdds.FST
variable {V : Type} [DecidableEq V]

theorem Reachable.inv {dv init : V} {lo hi : Int} {st : State V} (h : Reachable dv lo hi init st) :
    Inv lo hi dv init st := by
  obtain ⟨h1, ops, h2⟩ := h
  exact run_inv (inv_mk h1 dv init) h2

/-! Sample states used in the non-vacuity examples. -/

/-- 0:0, 10:5, 15:7, 50:0, 100 -/
def demo : State Int := ⟨[(0, 0), (10, 5), (15, 7), (50, 0), (100, 0)], 0, none, false⟩
/-- the same with the search tree built -/
def demoT : State Int := buildTree demo

def demoOps : List (Op Int) :=
  [.insertFront 10 20 5, .insertBack 20 50 7, .insertAt (some 1) 15 25 7]

theorem demo_reachable : Reachable (0 : Int) 0 100 0 demo := ⟨by decide, demoOps, by decide⟩
theorem demoT_reachable : Reachable (0 : Int) 0 100 0 demoT :=
  ⟨by decide, demoOps ++ [.buildTree], by decide +kernel⟩

/-! ## C01: insertion -/

/-- C01, except for the ranges with `s < min` and `e = min` (see `C01_insert_fails`): insertion from
the front or from the back updates the function on the clipped range and nowhere else, reports a
change exactly when the stored segments change, and rejects empty or outside ranges without effect. -/
theorem C01_insert_pointwise_partial {dv init : V} {lo hi : Int} {st : State V}
    (h : Reachable dv lo hi init st) (s e : Int) (v : V) (fwd : Bool) (hsafe : ¬ (s < lo ∧ e = lo)) :
    ∃ r, insertSegment st.leaves s e v fwd = .ok r ∧
      (∀ k, valueAt r.leaves k = specInsert (valueAt st.leaves) lo hi s e v k) ∧
      (r.changed = true ↔ r.leaves ≠ st.leaves) ∧
      ((e ≤ s ∨ e ≤ lo ∨ hi ≤ s) → r.leaves = st.leaves ∧ r.changed = false ∧ r.pos = none) := by
  obtain ⟨r, h1, h2⟩ := insertSegment_spec h.inv.wf hsafe v fwd
  refine ⟨r, h1, h2.value, h2.changed, ?_⟩
  intro hr; rw [h2.rejected hr]; exact ⟨rfl, rfl, rfl⟩

example : Reachable (0 : Int) 0 100 0 demo ∧ ¬ ((12 : Int) < 0 ∧ (60 : Int) = 0) ∧
    insertSegment demo.leaves 12 60 9 true =
      .ok ⟨[(0, 0), (10, 5), (12, 9), (60, 0), (100, 0)], some 2, true⟩ :=
  ⟨demo_reachable, by decide, by decide⟩

/-- On containers without redundant segments the flag says whether the *function* changed. -/
theorem C01_flag_is_function_change {dv init : V} {lo hi : Int} {st : State V}
    (h : Reachable dv lo hi init st) (hc : Canon st.leaves) (s e : Int) (v : V) (fwd : Bool)
    (r : InsRes V) (hr : insertSegment st.leaves s e v fwd = .ok r) :
    r.changed = false ↔ ∀ k, valueAt r.leaves k = valueAt st.leaves k := by
  by_cases hs : s < lo ∧ e = lo
  · rw [hs.2, insertSegment_ub h.inv.wf hs.1] at hr; cases hr
  · obtain ⟨r', h1, h2⟩ := insertSegment_spec h.inv.wf hs v fwd
    rw [hr] at h1; cases h1
    constructor
    · intro hf k
      have : r.leaves = st.leaves := by
        by_contra hne; rw [h2.changed.2 hne] at hf; cases hf
      rw [this]
    · intro hv
      by_contra hne
      have ht : r.changed = true := by simpa using hne
      exact h2.changed.1 ht (canon_unique h2.wf h.inv.wf (h2.canon hc) hc (fun k _ _ => hv k))

example : Canon demo.leaves ∧ insertSegment demo.leaves 20 40 7 true = .ok ⟨demo.leaves, some 2, false⟩ := by
  decide

/-- The excluded ranges really are undefined behaviour (a null pointer dereference), for every
reachable container, and they are the only ones. -/
theorem C01_insert_ub_iff {dv init : V} {lo hi : Int} {st : State V}
    (h : Reachable dv lo hi init st) (s e : Int) (v : V) (fwd : Bool) :
    insertSegment st.leaves s e v fwd = .ub ↔ s < lo ∧ e = lo := by
  constructor
  · intro hu
    by_contra hs
    obtain ⟨r, h1, -⟩ := insertSegment_spec h.inv.wf hs v fwd
    rw [h1] at hu; cases hu
  · rintro ⟨h1, rfl⟩; exact insertSegment_ub h.inv.wf h1 v fwd

/-- Violation of C01: `insert_front(-5, 0, 1)` on a container over [0, 100). -/
theorem C01_insert_fails :
    ∃ st : State Int, Reachable 0 0 100 0 st ∧ insertSegment st.leaves (-5) 0 1 true = .ub :=
  ⟨demo, demo_reachable, by decide⟩

/-! ## C02: invariants -/

/-- Keys strictly increase from `min` to `max`, after any history. -/
theorem C02_sorted_in_range {dv init : V} {lo hi : Int} {st : State V} (h : Reachable dv lo hi init st) :
    st.leaves.Pairwise (fun a b => a.1 < b.1) ∧ st.leaves.head?.map (·.1) = some lo ∧
      st.leaves.getLast? = some (hi, dv) ∧ st.init = init :=
  ⟨h.inv.wf.sorted, h.inv.wf.first, h.inv.wf.last, h.inv.init⟩

/-- Every operation keeps segments maximal, except `shift_left(s, max)` in the situation named by the
right-hand side - and then it always breaks maximality. -/
theorem C02_shiftLeft_maximal_iff {dv init : V} {lo hi : Int} {st st' : State V}
    (h : Reachable dv lo hi init st) (hc : Canon st.leaves) (s e : Int)
    (hs : step st (.shiftLeft s e) = .ok st') :
    Canon st'.leaves ↔ ¬ (lo < s ∧ s < e ∧ e = hi ∧ valueAt st.leaves (s - 1) = some init ∧
      valueAt st.leaves (hi - 1) ≠ some init) := by
  obtain ⟨r, h1, -, -, -, h5⟩ := shiftLeft_spec h.inv.wf st.init s e
  simp only [step, h1, applyShift, Outcome.map, Outcome.ok.injEq] at hs
  subst hs
  rw [h.inv.init] at h5
  exact h5 hc

/-- No operation except a `shift_left` ending at `max` can break maximality. -/
theorem step_canon {dv init : V} {lo hi : Int} {st st' : State V} (i : Inv lo hi dv init st)
    (hc : Canon st.leaves) {o : Op V} (ho : ∀ s, o ≠ .shiftLeft s hi) (hs : step st o = .ok st') :
    Canon st'.leaves := by
  have ins : ∀ (r : Outcome (InsRes V)) (s e : Int) (v : V) (fwd : Bool),
      r = insertSegment st.leaves s e v fwd → applyIns st r = .ok st' → Canon st'.leaves := by
    intro r s e v fwd hr ha
    by_cases hb : s < lo ∧ e = lo
    · rw [hr, hb.2, insertSegment_ub i.wf hb.1] at ha; cases ha
    · obtain ⟨r', h1, h2⟩ := insertSegment_spec i.wf hb v fwd
      rw [hr, h1] at ha
      simp [applyIns, Outcome.map] at ha; subst ha
      exact h2.canon hc
  cases o with
  | insertFront s e v => exact ins _ s e v true rfl hs
  | insertBack s e v => exact ins _ s e v false rfl hs
  | insertAt p s e v =>
    simp only [step] at hs
    have hp : ∀ q, p = some q → q < st.leaves.length := by
      rintro q rfl
      by_contra hn
      simp only [insertHint, List.getElem?_eq_none (Nat.le_of_not_lt hn)] at hs
      cases hs
    exact ins _ s e v true (insertHint_eq i.wf s e v p hp) hs
  | shiftLeft s e =>
    obtain ⟨r, h1, -, -, -, h5⟩ := shiftLeft_spec i.wf st.init s e
    simp only [step, h1, applyShift, Outcome.map, Outcome.ok.injEq] at hs
    subst hs
    rw [h5 hc]
    rintro ⟨-, -, h3, -⟩
    exact ho s (by rw [h3])
  | shiftRight p n k =>
    obtain ⟨r, h1, -, h3, -⟩ := shiftRight_spec i.wf st.init p n k
    simp only [step, h1, applyShift, Outcome.map, Outcome.ok.injEq] at hs
    subst hs
    exact h3 hc
  | buildTree => simp [step] at hs; subst hs; exact hc
  | recopy => simp [step] at hs; subst hs; exact hc
  | clear =>
    simp only [step, clear] at hs
    obtain ⟨v, t, e⟩ := i.wf.exists_cons
    simp only [i.wf.last] at hs
    rw [e] at hs
    simp at hs; subst hs
    simp [Canon]

/-- C02's maximality for every history without a `shift_left` that ends at `max`. -/
theorem C02_maximal_partial {dv init : V} {lo hi : Int} (hlt : lo < hi) {ops : List (Op V)} {st : State V}
    (h : run (mk dv lo hi init) ops = .ok st) (hops : ∀ o ∈ ops, ∀ s, o ≠ .shiftLeft s hi) :
    Canon st.leaves := by
  have gen : ∀ (ops : List (Op V)) (s0 : State V), Inv lo hi dv init s0 → Canon s0.leaves →
      (∀ o ∈ ops, ∀ s, o ≠ .shiftLeft s hi) → run s0 ops = .ok st → Canon st.leaves := by
    intro ops
    induction ops with
    | nil => intro s0 _ hc _ hr; simp [run] at hr; subst hr; exact hc
    | cons o os ih =>
      intro s0 i hc ho hr
      unfold run at hr
      cases hs : step s0 o with
      | ok s1 =>
        rw [hs] at hr
        exact ih s1 (step_inv i hs) (step_canon i hc (ho o (by simp)) hs)
          (fun o' h' => ho o' (by simp [h'])) hr
      | err x => rw [hs] at hr; cases hr
      | ub => rw [hs] at hr; cases hr
  exact gen ops _ (inv_mk hlt dv init) (by simp [Canon, mk]) hops h

example : (∀ o ∈ demoOps ++ [Op.shiftLeft 5 12, .shiftRight 30 4 true], ∀ s, o ≠ Op.shiftLeft s 100) ∧
    run (mk 0 0 100 0) (demoOps ++ [Op.shiftLeft 5 12, .shiftRight 30 4 true]) =
      .ok ⟨[(0, 0), (5, 5), (8, 7), (47, 0), (100, 0)], 0, none, false⟩ := by
  constructor
  · intro o ho s hs
    subst hs
    simp [demoOps] at ho
  · decide

/-- Violation of C02: two adjacent segments with the default value after `shift_left(10, 100)`. -/
theorem C02_maximal_fails :
    ∃ st : State Int, Reachable 0 0 100 0 st ∧ ¬ Canon st.leaves :=
  ⟨⟨[(0, 0), (10, 0), (100, 0)], 0, none, false⟩,
    ⟨by decide, [.insertBack 10 20 5, .insertBack 20 100 7, .shiftLeft 10 100], by decide⟩, by decide⟩

/-! ## C03: equality -/

/-- C03 for containers with maximal segments (all histories of `C02_maximal_partial`): equal iff the
same function. -/
theorem C03_equality_partial {dv init1 init2 : V} {lo hi : Int} {a b : State V}
    (ha : Reachable dv lo hi init1 a) (hb : Reachable dv lo hi init2 b)
    (ca : Canon a.leaves) (cb : Canon b.leaves) :
    a.beq b = true ↔ ∀ k, valueAt a.leaves k = valueAt b.leaves k := by
  unfold State.beq
  rw [leavesEq_iff]
  constructor
  · intro h k; rw [h]
  · intro h; exact canon_unique ha.inv.wf hb.inv.wf ca cb (fun k _ _ => h k)

example : Canon demo.leaves ∧ Reachable (0 : Int) 0 100 0 demo ∧
    demo.beq ⟨[(0, 0), (10, 5), (15, 7), (50, 0), (100, 0)], 0, none, false⟩ = true := ⟨by decide, demo_reachable, by decide⟩

/-- Equality implies the same function without any condition, also across different bounds. -/
theorem C03_equal_same_function {dv init1 init2 : V} {lo hi lo' hi' : Int} {a b : State V}
    (ha : Reachable dv lo hi init1 a) (hb : Reachable dv lo' hi' init2 b) (h : a.beq b = true) :
    lo = lo' ∧ hi = hi' ∧ ∀ k, valueAt a.leaves k = valueAt b.leaves k := by
  unfold State.beq at h
  rw [leavesEq_iff] at h
  have h1 := ha.inv.wf.first
  have h2 := hb.inv.wf.first
  have h3 := ha.inv.wf.last
  have h4 := hb.inv.wf.last
  rw [h] at h1 h3
  rw [h1] at h2; rw [h3] at h4
  simp at h2 h4
  exact ⟨h2, h4, fun k => by rw [h]⟩

/-- Violation of C03: the two containers have the same value at every key and compare unequal. -/
theorem C03_equality_fails :
    ∃ a b : State Int, Reachable 0 0 100 0 a ∧ Reachable 0 0 100 0 b ∧
      (∀ k, valueAt a.leaves k = valueAt b.leaves k) ∧ a.beq b = false := by
  refine ⟨⟨[(0, 0), (10, 0), (100, 0)], 0, none, false⟩, mk 0 0 100 0,
    ⟨by decide, [.insertBack 10 20 5, .insertBack 20 100 7, .shiftLeft 10 100], by decide⟩,
    ⟨by decide, [], rfl⟩, ?_, by decide⟩
  intro k
  simp only [mk, valueAt]
  by_cases h1 : 0 ≤ k ∧ k < 10
  · rw [if_pos h1, if_pos (by omega)]
  · rw [if_neg h1]
    by_cases h2 : 10 ≤ k ∧ k < 100
    · rw [if_pos h2, if_pos (by omega)]
    · rw [if_neg h2, if_neg (by omega)]

/-! ## C04: linear search -/

/-- C04: in-range keys are found with the function's value and the bounds of the stored segment;
the value is constant on the reported bounds; other keys are not found. -/
theorem C04_search {dv init : V} {lo hi : Int} {st : State V} (h : Reachable dv lo hi init st) (key : Int) :
    (lo ≤ key ∧ key < hi → ∃ hit, search st.leaves key = .ok (some hit) ∧
      valueAt st.leaves key = some hit.value ∧ hit.start ≤ key ∧ key < hit.stop ∧
      (∀ k, hit.start ≤ k → k < hit.stop → valueAt st.leaves k = some hit.value) ∧
      st.leaves[hit.idx]? = some (hit.start, hit.value) ∧
      (st.leaves[hit.idx + 1]?).map (·.1) = some hit.stop) ∧
    (¬ (lo ≤ key ∧ key < hi) → search st.leaves key = .ok none) := by
  have w := h.inv.wf
  constructor
  · rintro ⟨h1, h2⟩
    obtain ⟨i, a, b, ha, hb, hk1, hk2⟩ := w.locate h1 h2
    refine ⟨⟨i, a.2, a.1, b.1⟩, ?_, valueAt_of_seg w.sorted ha hb hk1 hk2, hk1, hk2,
      fun k h3 h4 => valueAt_of_seg w.sorted ha hb h3 h4, by simpa using ha, by simp [hb]⟩
    unfold search
    rw [bounds_eq w]
    simp only
    rw [if_neg (by omega), insPos_located w.sorted ha hb hk1 hk2 (Nat.zero_le _)]
    exact searchImpl_located w.sorted ha hb hk1 hk2
  · intro hn
    unfold search
    rw [bounds_eq w]
    simp only
    rw [if_pos (by omega)]

example : search demo.leaves 20 = .ok (some ⟨2, 7, 15, 50⟩) ∧ search demo.leaves 100 = .ok none := by decide

/-- The reported segment cannot be extended, when segments are maximal. -/
theorem C04_segment_is_maximal {dv init : V} {lo hi : Int} {st : State V} (h : Reachable dv lo hi init st)
    (hc : Canon st.leaves) (key : Int) (hit : Hit V) (hs : search st.leaves key = .ok (some hit)) :
    (hit.start ≠ lo → valueAt st.leaves (hit.start - 1) ≠ some hit.value) ∧
    (hit.stop ≠ hi → valueAt st.leaves hit.stop ≠ some hit.value) := by
  have w := h.inv.wf
  obtain ⟨hin, hout⟩ := C04_search h key
  by_cases hr : lo ≤ key ∧ key < hi
  · obtain ⟨hit', e1, -, -, -, -, e2, e3⟩ := hin hr
    rw [hs] at e1; cases e1
    have chain : ∀ (j : Nat) (x y : Leaf V), st.leaves[j]? = some x → st.leaves[j + 1]? = some y →
        j + 2 < st.leaves.length → x.2 ≠ y.2 := by
      intro j x y hx hy hj
      unfold Canon at hc
      rw [List.isChain_iff_getElem] at hc
      have hl : j + 1 < st.leaves.dropLast.length := by simp; omega
      have := hc j hl
      rw [List.getElem_dropLast, List.getElem_dropLast] at this
      obtain ⟨_, rfl⟩ := List.getElem?_eq_some_iff.1 hx
      obtain ⟨_, rfl⟩ := List.getElem?_eq_some_iff.1 hy
      exact this
    obtain ⟨y, hy, hys⟩ : ∃ y, st.leaves[hit.idx + 1]? = some y ∧ y.1 = hit.stop := by
      revert e3; cases st.leaves[hit.idx + 1]? <;> simp
    have hyl := (List.getElem?_eq_some_iff.1 hy).1
    constructor
    · intro hne hv
      cases hi0 : hit.idx with
      | zero =>
        rw [hi0] at e2
        have := w.first
        rw [List.head?_eq_getElem?, e2] at this
        simp at this; exact hne this
      | succ j =>
        rw [hi0] at e2 hyl
        have hjl : j < st.leaves.length := by omega
        have hx : st.leaves[j]? = some st.leaves[j] := List.getElem?_eq_getElem hjl
        have hlt := sorted_idx_lt w.sorted hx e2 (Nat.lt_succ_self j)
        have hval := valueAt_of_seg w.sorted hx e2 (k := hit.start - 1) (by simp at hlt; omega)
          (by show hit.start - 1 < hit.start; omega)
        rw [hval] at hv
        have := chain j _ _ hx e2 (by omega)
        simp at hv; exact this hv
    · intro hne hv
      by_cases hl2 : hit.idx + 2 < st.leaves.length
      · have hz : st.leaves[hit.idx + 1 + 1]? = some st.leaves[hit.idx + 1 + 1] := List.getElem?_eq_getElem hl2
        have hlt := sorted_idx_lt w.sorted hy hz (Nat.lt_succ_self _)
        have hval := valueAt_of_seg w.sorted hy hz (k := hit.stop) (by omega) (by omega)
        rw [hval] at hv
        have := chain hit.idx _ _ e2 hy hl2
        simp at hv; exact this hv.symm
      · have h5 := w.last
        rw [List.getLast?_eq_getElem?] at h5
        have h6 : st.leaves.length - 1 = hit.idx + 1 := by omega
        rw [h6, hy] at h5
        simp at h5; rw [h5] at hys; exact hne hys.symm
  · rw [hout hr] at hs; cases hs

/-- Search with a position hint gives the same answer for every valid or null position. -/
theorem C04_search_with_position {dv init : V} {lo hi : Int} {st : State V} (h : Reachable dv lo hi init st)
    (key : Int) (p : Option Nat) (hp : ∀ q, p = some q → q < st.leaves.length) :
    searchHint st.leaves p key = search st.leaves key := by
  have w := h.inv.wf
  by_cases hr : lo ≤ key ∧ key < hi
  · obtain ⟨h1, h2⟩ := hr
    obtain ⟨i, a, b, ha, hb, hk1, hk2⟩ := w.locate h1 h2
    unfold searchHint
    rw [bounds_eq w]
    simp only
    rw [if_neg (by omega)]
    cases p with
    | none => rfl
    | some q =>
      have hq := hp q rfl
      simp only [List.getElem?_eq_getElem hq]
      split
      · rfl
      · rename_i hle
        have hqi : q ≤ i := by
          by_contra hn
          have hb' : b.1 ≤ (st.leaves[q]).1 := by
            rcases Nat.lt_or_ge (i + 1) q with hlt | hge
            · have := sorted_idx_lt w.sorted hb (List.getElem?_eq_getElem hq) hlt; omega
            · have : q = i + 1 := by omega
              subst this
              rw [List.getElem?_eq_getElem hq] at hb; cases hb; omega
          omega
        rw [insPos_located w.sorted ha hb hk1 hk2 hqi]
        simp only
        rw [searchImpl_located w.sorted ha hb hk1 hk2]
        unfold search
        rw [bounds_eq w]
        simp only
        rw [if_neg (by omega), insPos_located w.sorted ha hb hk1 hk2 (Nat.zero_le _)]
        simp only
        rw [searchImpl_located w.sorted ha hb hk1 hk2]
  · rw [(C04_search h key).2 hr]
    unfold searchHint
    rw [bounds_eq w]
    simp only
    rw [if_pos (by omega)]

example : searchHint demo.leaves (some 3) 20 = .ok (some ⟨2, 7, 15, 50⟩) := by decide

/-- The iterator-returning search designates the same node, if it starts at or before it. -/
theorem C04_search_iterator_partial {dv init : V} {lo hi : Int} {st : State V} (h : Reachable dv lo hi init st)
    (key : Int) (p : Nat) (n : Leaf V) (hp : st.leaves[p]? = some n) (hn : n.1 ≤ key) :
    (searchByKey st.leaves (some p) key) = (search st.leaves key).map (Option.map Hit.idx) := by
  have w := h.inv.wf
  by_cases hr : lo ≤ key ∧ key < hi
  · obtain ⟨h1, h2⟩ := hr
    obtain ⟨i, a, b, ha, hb, hk1, hk2⟩ := w.locate h1 h2
    have hpi : p ≤ i := by
      by_contra hc
      have : b.1 ≤ n.1 := by
        rcases Nat.lt_or_ge (i + 1) p with hlt | hge
        · have := sorted_idx_lt w.sorted hb hp hlt; omega
        · have : p = i + 1 := by omega
          subst this; rw [hb] at hp; cases hp; omega
      omega
    unfold searchByKey search
    rw [bounds_eq w]
    simp only [Option.bind_some]
    rw [if_neg (by omega), if_neg (by omega), insPos_located w.sorted ha hb hk1 hk2 hpi,
      insPos_located w.sorted ha hb hk1 hk2 (Nat.zero_le _)]
    simp only
    rw [searchImpl_located w.sorted ha hb hk1 hk2]
    by_cases hk : a.1 = key
    · simp [hk, ha, Outcome.map]
    · have h3 : a.1 < key := by omega
      have h4 : b.1 ≠ key := by omega
      simp [hk, hb, ha, h3, h4, Outcome.map]
  · rw [(C04_search h key).2 hr]
    unfold searchByKey
    rw [bounds_eq w]
    simp only
    rw [if_pos (by omega)]; rfl

example : demo.leaves[1]? = some (10, 5) ∧ searchByKey demo.leaves (some 1) 20 = .ok (some 2) := by decide

/-- Without that condition the iterator search misses keys: there is no fallback to a search from
the start (unlike `search(pos, key, value, ...)`). -/
theorem C04_search_iterator_fails :
    ∃ (st : State Int) (p : Nat) (key : Int), Reachable 0 0 100 0 st ∧ p < st.leaves.length ∧
      0 ≤ key ∧ key < 100 ∧ searchByKey st.leaves (some p) key = .ok none :=
  ⟨demo, 3, 5, demo_reachable, by decide, by decide, by decide, by decide⟩

/-! ## C05: tree search -/

/-- C05: with a valid tree, tree search is linear search (value, bounds and iterator); without one
it finds nothing.  Holds in every reachable state, so `m_valid_tree` is never stale. -/
theorem C05_tree_search {dv init : V} {lo hi : Int} {st : State V} (h : Reachable dv lo hi init st) (key : Int) :
    searchTree st key = if st.valid then search st.leaves key else .ok none := by
  have w := h.inv.wf
  by_cases hv : st.valid = true
  · rw [if_pos hv]
    have hne : st.leaves.map (·.1) ≠ [] := by
      obtain ⟨v, t, e⟩ := w.exists_cons; simp [e]
    obtain ⟨t, ht, hg⟩ := buildTreeOf_good _ hne
    have hroot : st.root = some t := by rw [h.inv.tree hv, ht]
    by_cases hr : lo ≤ key ∧ key < hi
    · obtain ⟨h1, h2⟩ := hr
      obtain ⟨i, a, b, ha, hb, hk1, hk2⟩ := w.locate h1 h2
      have hf := hg.facts
      have hlow : t.low = lo := by
        have := hf.2.2.1
        rw [← List.head?_eq_getElem?, List.head?_map, w.first] at this
        simpa using this.symm
      have hhigh : t.high = hi := by
        have h3 := hf.2.2.2
        rw [Nat.min_eq_right (by omega)] at h3
        rw [← List.getLast?_eq_getElem?, List.getLast?_map, w.last] at h3
        simpa using h3.symm
      have hd := descend_good w.sorted ha hb hk1 hk2 hg (by omega) (by omega)
      unfold searchTree searchTreeLeaf
      rw [hroot, hv]
      simp only
      rw [bounds_eq w]
      simp only
      rw [if_neg (by omega), hd]
      simp only [ha, hb]
      unfold search
      rw [bounds_eq w]
      simp only
      rw [if_neg (by omega), insPos_located w.sorted ha hb hk1 hk2 (Nat.zero_le _)]
      simp only
      rw [searchImpl_located w.sorted ha hb hk1 hk2]
    · rw [(C04_search h key).2 hr]
      unfold searchTree searchTreeLeaf
      rw [hroot, hv]
      simp only
      rw [bounds_eq w]
      simp only
      rw [if_pos (by omega)]
  · have hf : st.valid = false := by simpa using hv
    rw [if_neg hv]
    unfold searchTree searchTreeLeaf
    rw [hf]
    cases st.root <;> rfl

/-- After `build_tree()` the tree is valid; before it and after any change of the segments' keys it
is not. -/
theorem C05_tree_validity {dv init : V} {lo hi : Int} {st st' : State V} (h : Reachable dv lo hi init st) :
    (buildTree st).valid = true ∧ Reachable dv lo hi init (buildTree st) ∧
    (mk dv lo hi init).valid = false ∧
    ∀ o, step st o = .ok st' → st'.leaves.map (·.1) ≠ st.leaves.map (·.1) → st'.valid = false := by
  refine ⟨rfl, ?_, rfl, ?_⟩
  · obtain ⟨h1, ops, h2⟩ := h
    refine ⟨h1, ops ++ [.buildTree], ?_⟩
    have gen : ∀ (ops : List (Op V)) (s0 : State V), run s0 ops = .ok st →
        run s0 (ops ++ [.buildTree]) = .ok (buildTree st) := by
      intro ops
      induction ops with
      | nil => intro s0 hr; simp [run] at hr; subst hr; simp [run, step]
      | cons o os ih =>
        intro s0 hr
        rw [List.cons_append]
        unfold run at hr ⊢
        cases hs : step s0 o with
        | ok s1 => rw [hs] at hr; exact ih s1 hr
        | err x => rw [hs] at hr; cases hr
        | ub => rw [hs] at hr; cases hr
    exact gen ops _ h2
  · intro o hs hne
    have ins : ∀ r : Outcome (InsRes V), (∀ x, r = .ok x → (x.changed = false → x.leaves = st.leaves)) →
        applyIns st r = .ok st' → st'.valid = false := by
      intro r hr ha
      cases r with
      | ub => cases ha
      | err x => cases ha
      | ok x =>
        simp only [applyIns, Outcome.map, Outcome.ok.injEq] at ha
        subst ha
        simp only at hne ⊢
        cases hc : x.changed with
        | true => simp
        | false => exact absurd (by rw [hr x rfl hc]) hne
    have seg : ∀ s e v fwd x, insertSegment st.leaves s e v fwd = .ok x → x.changed = false →
        x.leaves = st.leaves := by
      intro s e v fwd x hx hc
      by_cases hb : s < lo ∧ e = lo
      · rw [hb.2, insertSegment_ub h.inv.wf hb.1] at hx; cases hx
      · obtain ⟨r, h1, h2⟩ := insertSegment_spec h.inv.wf hb v fwd
        rw [h1] at hx; cases hx
        by_contra hn
        rw [h2.changed.2 hn] at hc; cases hc
    cases o with
    | insertFront s e v => exact ins _ (fun x hx => seg _ _ _ _ x hx) hs
    | insertBack s e v => exact ins _ (fun x hx => seg _ _ _ _ x hx) hs
    | insertAt p s e v =>
      simp only [step] at hs
      have hp : ∀ q, p = some q → q < st.leaves.length := by
        rintro q rfl
        by_contra hn
        simp only [insertHint, List.getElem?_eq_none (Nat.le_of_not_lt hn)] at hs
        cases hs
      rw [insertHint_eq h.inv.wf s e v p hp] at hs
      exact ins _ (fun x hx => seg _ _ _ _ x hx) hs
    | shiftLeft s e =>
      obtain ⟨r, h1, -⟩ := shiftLeft_spec h.inv.wf st.init s e
      simp only [step, h1, applyShift, Outcome.map, Outcome.ok.injEq] at hs
      subst hs
      simp only at hne ⊢
      cases hr : r.2 with
      | true => exact absurd (shiftLeft_valid h1 hr) hne
      | false => simp
    | shiftRight p n k =>
      obtain ⟨r, h1, -, -, h3, h4⟩ := shiftRight_spec h.inv.wf st.init p n k
      simp only [step, h1, applyShift, Outcome.map, Outcome.ok.injEq] at hs
      subst hs
      simp only at hne ⊢
      by_cases hc : 0 < n ∧ lo ≤ p ∧ p < hi
      · rw [(h3 hc).1]; simp
      · rw [h4 hc] at hne; exact absurd rfl hne
    | buildTree => simp [step] at hs; subst hs; exact absurd rfl hne
    | recopy => simp [step] at hs; subst hs; rfl
    | clear =>
      simp only [step, clear] at hs
      obtain ⟨v, t, e⟩ := h.inv.wf.exists_cons
      simp only [h.inv.wf.last] at hs
      rw [e] at hs
      simp at hs; subst hs; rfl

example : Reachable (0 : Int) 0 100 0 demoT ∧ demoT.valid = true ∧
    searchTree demoT 20 = .ok (some ⟨2, 7, 15, 50⟩) ∧ searchTree demoT 99 = .ok (some ⟨3, 0, 50, 100⟩) ∧
    searchTree demoT 100 = .ok none :=
  ⟨demoT_reachable, by decide +kernel, by decide +kernel, by decide +kernel, by decide +kernel⟩

/-! ## C06: hinted insertion -/

/-- C06: with any valid (or null) position the result - container, flag and returned position - is
that of `insert_front`. -/
theorem C06_insert_hint {dv init : V} {lo hi : Int} {st : State V} (h : Reachable dv lo hi init st)
    (s e : Int) (v : V) (p : Option Nat) (hp : ∀ q, p = some q → q < st.leaves.length) :
    insertHint st.leaves p s e v = insertSegment st.leaves s e v true :=
  insertHint_eq h.inv.wf s e v p hp

/-- The returned iterator designates the stored segment that covers the inserted range. -/
theorem C06_returned_position {dv init : V} {lo hi : Int} {st : State V} (h : Reachable dv lo hi init st)
    (s e : Int) (v : V) (fwd : Bool) (hse : s < e) (hlo : lo < e) (hhi : s < hi) :
    ∃ r p k k' v', insertSegment st.leaves s e v fwd = .ok r ∧ r.pos = some p ∧
      r.leaves[p]? = some (k, v) ∧ r.leaves[p + 1]? = some (k', v') ∧ k ≤ max s lo ∧ min e hi ≤ k' := by
  obtain ⟨r, h1, h2⟩ := insertSegment_spec h.inv.wf (s := s) (e := e) (by omega) v fwd
  obtain ⟨p, k, k', v', q⟩ := h2.pos hse hlo hhi
  exact ⟨r, p, k, k', v', h1, q⟩

example : insertHint demo.leaves (some 4) 12 60 9 = insertSegment demo.leaves 12 60 9 true ∧
    insertHint demo.leaves (some 1) 12 60 9 =
      .ok ⟨[(0, 0), (10, 5), (12, 9), (60, 0), (100, 0)], some 2, true⟩ := by decide

/-! ## C07: shift_left -/

/-- C07. -/
theorem C07_shift_left {dv init : V} {lo hi : Int} {st : State V} (h : Reachable dv lo hi init st) (s e : Int) :
    ∃ st', step st (.shiftLeft s e) = .ok st' ∧
      (lo ≤ s ∧ s < e ∧ e ≤ hi →
        ∀ k, valueAt st'.leaves k = specShiftLeft (valueAt st.leaves) hi init s e k) ∧
      (¬ (lo ≤ s ∧ s < e ∧ e ≤ hi) → st' = st) := by
  obtain ⟨r, h1, h2, h3, h4, -⟩ := shiftLeft_spec h.inv.wf st.init s e
  refine ⟨{ st with leaves := r.1, valid := st.valid && r.2 },
    by simp only [step, h1, applyShift, Outcome.map], ?_, ?_⟩
  · rw [← h.inv.init]; exact h3
  · intro hn; rw [h4 hn]; simp

example : Reachable (0 : Int) 0 100 0 demo ∧ (0 : Int) ≤ 5 ∧ (5 : Int) < 12 ∧ (12 : Int) ≤ 100 ∧
    step demo (.shiftLeft 5 12) = .ok ⟨[(0, 0), (5, 5), (8, 7), (43, 0), (100, 0)], 0, none, false⟩ :=
  ⟨demo_reachable, by decide, by decide, by decide, by decide⟩

/-! ## C08: shift_right -/

/-- C08: the inserted keys get the default value at `min`, else the value before `pos`; with
`skip_start_node` the value at `pos` (the segment starting at `pos`, or containing it, is extended). -/
theorem C08_shift_right {dv init : V} {lo hi : Int} {st : State V} (h : Reachable dv lo hi init st)
    (p n : Int) (skip : Bool) :
    ∃ st', step st (.shiftRight p n skip) = .ok st' ∧
      (0 < n ∧ lo ≤ p ∧ p < hi → ∀ k, valueAt st'.leaves k = specShiftRight (valueAt st.leaves) hi
        (if skip then valueAt st.leaves p else if p = lo then some init else valueAt st.leaves (p - 1)) p n k) ∧
      (¬ (0 < n ∧ lo ≤ p ∧ p < hi) → st' = st) := by
  obtain ⟨r, h1, h2, -, h3, h4⟩ := shiftRight_spec h.inv.wf st.init p n skip
  refine ⟨{ st with leaves := r.1, valid := st.valid && r.2 },
    by simp only [step, h1, applyShift, Outcome.map], ?_, ?_⟩
  · intro hc; rw [← h.inv.init]; exact (h3 hc).2
  · intro hn; rw [h4 hn]; simp

example : Reachable (0 : Int) 0 100 0 demo ∧
    step demo (.shiftRight 10 60 true) = .ok ⟨[(0, 0), (10, 5), (75, 7), (100, 0)], 0, none, false⟩ ∧
    step demo (.shiftRight 10 60 false) = .ok ⟨[(0, 0), (70, 5), (75, 7), (100, 0)], 0, none, false⟩ :=
  ⟨demo_reachable, by decide, by decide⟩

/-! ## C09: iteration -/

/-- Forward iteration visits all nodes in order; reverse iteration is its reverse. -/
theorem C09_iteration {dv init : V} {lo hi : Int} {st : State V} (h : Reachable dv lo hi init st)
    (fuel : Nat) (hf : st.leaves.length ≤ fuel) :
    ∃ xs, iterate st.leaves (itInc st.leaves) (itEnd st.leaves) fuel itBegin = some xs ∧
      iterate st.leaves ritInc ritEnd fuel (ritBegin st.leaves) = some xs.reverse ∧
      xs.Pairwise (fun a b => a.1 < b.1) ∧ xs.head?.map (·.1) = some lo ∧ xs.getLast?.map (·.1) = some hi ∧
      ∀ k v, (k, v) ∈ xs ↔ (k, v) ∈ st.leaves := by
  have w := h.inv.wf
  have hpos : 0 < st.leaves.length := by
    obtain ⟨v, t, e⟩ := w.exists_cons; simp [e]
  refine ⟨st.leaves, ?_, ?_, w.sorted, w.first, by simp [w.last], fun _ _ => Iff.rfl⟩
  · have := iterate_fwd st.leaves 0 hpos fuel (by omega)
    simpa [itBegin] using this
  · have := iterate_rev st.leaves (st.leaves.length - 1) (by omega) fuel (by omega)
    have e : st.leaves.length - 1 + 1 = st.leaves.length := by omega
    rw [e, List.take_length] at this
    simpa [ritBegin] using this

example : iterate demo.leaves ritInc ritEnd 5 (ritBegin demo.leaves) =
    some [(100, 0), (50, 0), (15, 7), (10, 5), (0, 0)] := by decide

omit [DecidableEq V] in
theorem segments_head (ls : List (Leaf V)) (a b : Leaf V) (t : List (Leaf V)) (h : ls = a :: b :: t) :
    segments ls = (a.1, b.1, a.2) :: segments (b :: t) := by rw [h, segments]

omit [DecidableEq V] in
theorem segments_spec {lo hi : Int} {dv : V} {ls : List (Leaf V)} (w : WF lo hi dv ls) :
    (segments ls).IsChain (fun x y => x.2.1 = y.1) ∧ (segments ls).head?.map (·.1) = some lo ∧
      (segments ls).getLast?.map (·.2.1) = some hi ∧
      ∀ x ∈ segments ls, x.1 < x.2.1 ∧ ∃ i, ∃ p q : Leaf V, ls[i]? = some p ∧ ls[i + 1]? = some q ∧
        p.1 = x.1 ∧ q.1 = x.2.1 ∧ p.2 = x.2.2 := by
  induction ls generalizing lo with
  | nil => have := w.first; simp at this
  | cons a t ih =>
    obtain ⟨v, b, t', e⟩ := w.two
    obtain ⟨rfl, rfl⟩ : a = (lo, v) ∧ t = b :: t' := by simpa using e
    have hab : lo < b.1 := (List.pairwise_cons.1 w.sorted).1 b (by simp)
    have hl : (b :: t').getLast? = some (hi, dv) := by simpa [List.getLast?_cons_cons] using w.last
    have hbhi := w.le_hi b (by simp)
    rw [segments]
    cases t' with
    | nil =>
      simp at hl
      subst hl
      refine ⟨by simp [segments], by simp, by simp [segments], ?_⟩
      intro x hx
      simp [segments] at hx; subst hx
      exact ⟨hab, 0, (lo, v), (hi, dv), by simp, by simp, rfl, rfl, rfl⟩
    | cons c t'' =>
      have hs := (List.pairwise_cons.1 w.sorted).2
      have hbc : b.1 < c.1 := (List.pairwise_cons.1 hs).1 c (by simp)
      have hchi := w.le_hi c (by simp)
      obtain ⟨i1, i2, i3, i4⟩ := ih (lo := b.1) ⟨by omega, hs, by simp, hl⟩
      refine ⟨?_, by simp, ?_, ?_⟩
      · rw [List.isChain_cons]
        refine ⟨?_, i1⟩
        intro y hy
        rw [Option.mem_def] at hy; rw [hy] at i2
        simpa using i2.symm
      · rw [segments_head _ _ _ _ rfl, List.getLast?_cons_cons, ← segments_head _ _ _ _ rfl]; exact i3
      · intro x hx
        rcases List.mem_cons.1 hx with rfl | hx
        · exact ⟨hab, 0, (lo, v), b, by simp, by simp, rfl, rfl, rfl⟩
        · obtain ⟨h1, i, p, q, h2, h3, h4⟩ := i4 x hx
          exact ⟨h1, i + 1, p, q, by simpa using h2, by simpa using h3, h4⟩

/-- C09, segments: the segment iterator yields contiguous non-empty ranges from `min` to `max`, each
with the function's value on it. -/
theorem C09_segments {dv init : V} {lo hi : Int} {st : State V} (h : Reachable dv lo hi init st)
    (fuel : Nat) (hf : st.leaves.length ≤ fuel) :
    ∃ xs, segIterate st.leaves fuel (segBegin st.leaves) = some xs ∧
      xs.IsChain (fun x y => x.2.1 = y.1) ∧ xs.head?.map (·.1) = some lo ∧
      xs.getLast?.map (·.2.1) = some hi ∧
      ∀ x ∈ xs, x.1 < x.2.1 ∧ ∀ k, x.1 ≤ k → k < x.2.1 → valueAt st.leaves k = some x.2.2 := by
  have w := h.inv.wf
  have hpos : 0 < st.leaves.length := by
    obtain ⟨v, t, e⟩ := w.exists_cons; simp [e]
  obtain ⟨h1, h2, h3, h4⟩ := segments_spec w
  refine ⟨segments st.leaves, ?_, h1, h2, h3, ?_⟩
  · simpa [segBegin] using segIterate_eq st.leaves 0 hpos fuel (by omega)
  · intro x hx
    obtain ⟨h5, i, p, q, e1, e2, e3, e4, e5⟩ := h4 x hx
    refine ⟨h5, fun k hk1 hk2 => ?_⟩
    rw [← e5]
    exact valueAt_of_seg w.sorted e1 e2 (by omega) (by omega)

example : segIterate demo.leaves 5 (segBegin demo.leaves) =
    some [(0, 10, 0), (10, 15, 5), (15, 50, 7), (50, 100, 0)] := by decide

omit [DecidableEq V] in
theorem segments_start_mem (ls : List (Leaf V)) : ∀ x ∈ segments ls, ∃ p ∈ ls, p.1 = x.1 := by
  induction ls with
  | nil => simp [segments]
  | cons a t ih =>
    cases t with
    | nil => simp [segments]
    | cons b t =>
      intro x hx
      rw [segments] at hx
      rcases List.mem_cons.1 hx with rfl | hx
      · exact ⟨a, by simp, rfl⟩
      · obtain ⟨p, hp, e⟩ := ih x hx
        exact ⟨p, List.mem_cons_of_mem _ hp, e⟩

omit [DecidableEq V] in
theorem segments_from (ls : List (Leaf V)) (hs : ls.Pairwise (fun a b => a.1 < b.1)) {n : Nat} {k : Int} {v : V}
    (hn : ls[n]? = some (k, v)) : (segments ls).filter (fun x => decide (k ≤ x.1)) = segments (ls.drop n) := by
  induction ls generalizing n with
  | nil => simp at hn
  | cons a t ih =>
    cases n with
    | zero =>
      cases (by simpa using hn : a = (k, v))
      rw [List.drop_zero, List.filter_eq_self]
      intro x hx
      obtain ⟨p, hp, e⟩ := segments_start_mem _ x hx
      rcases List.mem_cons.1 hp with rfl | hp
      · simp [← e]
      · have := (List.pairwise_cons.1 hs).1 p hp
        simp only [decide_eq_true_eq]
        simp only at this
        omega
    | succ n =>
      have hn' : t[n]? = some (k, v) := by simpa using hn
      have hak : a.1 < k := (List.pairwise_cons.1 hs).1 (k, v) (List.mem_of_getElem? hn')
      have := ih (List.pairwise_cons.1 hs).2 hn'
      rw [List.drop_succ_cons, ← this]
      cases t with
      | nil => simp at hn'
      | cons b t =>
        rw [segments, List.filter_cons, if_neg (by simpa using hak)]

/-- C09, `to_segment`: the segment iterator made from an iterator at the key `k` shows the segment that starts at `k` with the value
that the iterator shows; walking on from it yields the rest of the segments.  At `max` and at the end it is the end. -/
theorem C09_to_segment {dv init : V} {lo hi : Int} {st : State V} (h : Reachable dv lo hi init st) {n : Nat} {k : Int} {v : V}
    (hn : st.leaves[n]? = some (k, v)) (fuel : Nat) (hf : st.leaves.length ≤ fuel) :
    (∃ xs, segIterate st.leaves fuel (segBegin st.leaves) = some xs ∧
      segIterate st.leaves fuel (toSegment st.leaves ⟨n, false⟩) = some (xs.filter fun x => decide (k ≤ x.1))) ∧
    (k < hi → ∃ e, segDeref st.leaves (toSegment st.leaves ⟨n, false⟩) = some (k, e, v)) ∧
    (k = hi → toSegment st.leaves ⟨n, false⟩ = segEnd st.leaves) ∧
    toSegment st.leaves ⟨n, true⟩ = segEnd st.leaves := by
  have w := h.inv.wf
  have hlen : n < st.leaves.length := (List.getElem?_eq_some_iff.1 hn).1
  have hto : toSegment st.leaves ⟨n, false⟩ = ⟨n, nextIdx st.leaves n⟩ := by
    simp only [toSegment, nextIdx]
    split
    · contradiction
    · split
      · rename_i h1
        split at h1
        · cases h1
        · rename_i h2
          rw [if_neg h2, segEnd]
          congr 1
          omega
      · rename_i h1; rw [h1]
  have hlast : st.leaves[st.leaves.length - 1]? = some (hi, dv) := by
    rw [← List.getLast?_eq_getElem?]; exact w.last
  refine ⟨⟨segments st.leaves, ?_, ?_⟩, ?_, ?_, by simp [toSegment]⟩
  · simpa [segBegin] using segIterate_eq st.leaves 0 (by omega) fuel (by omega)
  · rw [hto, segIterate_eq st.leaves n hlen fuel (by omega), segments_from _ w.sorted hn]
  · intro hk
    have h1 : n + 1 < st.leaves.length := by
      by_contra hc
      have : n = st.leaves.length - 1 := by omega
      rw [← this, hn] at hlast
      cases hlast
      omega
    refine ⟨(st.leaves[n + 1]'h1).1, ?_⟩
    rw [hto]
    simp only [segDeref, nextIdx, if_pos h1, hn, List.getElem?_eq_getElem h1]
  · intro hk
    have h1 : n = st.leaves.length - 1 := by
      by_contra hc
      have hlt := List.pairwise_iff_getElem.1 w.sorted n (st.leaves.length - 1) hlen (by omega) (by omega)
      rw [(List.getElem?_eq_some_iff.1 hn).2, (List.getElem?_eq_some_iff.1 hlast).2] at hlt
      simp only at hlt
      omega
    rw [hto, segEnd, nextIdx, if_neg (by omega), ← h1]

example : segDeref demo.leaves (toSegment demo.leaves ⟨2, false⟩) = some (15, 50, 7) ∧
    segIterate demo.leaves 5 (toSegment demo.leaves ⟨2, false⟩) = some [(15, 50, 7), (50, 100, 0)] ∧
    toSegment demo.leaves ⟨4, false⟩ = segEnd demo.leaves := by decide

/-! ## C10: copy, swap, clear -/

/-- C10, copy: same function, same bounds, same default, equal to the source, and reachable (so all
other theorems apply to it).  Independence of the source: the model's values are immutable; in the
code every leaf node is newly allocated (`fst.inl` 82-103). -/
theorem C10_copy {dv init : V} {lo hi : Int} {st : State V} (h : Reachable dv lo hi init st) :
    Reachable dv lo hi init (copy st) ∧ (copy st).beq st = true ∧
      (∀ k, valueAt (copy st).leaves k = valueAt st.leaves k) ∧ (copy st).init = init ∧
      (copy st).valid = false := by
  refine ⟨?_, ?_, fun _ => rfl, h.inv.init, rfl⟩
  · obtain ⟨h1, ops, h2⟩ := h
    refine ⟨h1, ops ++ [.recopy], ?_⟩
    have gen : ∀ (ops : List (Op V)) (s0 : State V), run s0 ops = .ok st →
        run s0 (ops ++ [.recopy]) = .ok (copy st) := by
      intro ops
      induction ops with
      | nil => intro s0 hr; simp [run] at hr; subst hr; simp [run, step]
      | cons o os ih =>
        intro s0 hr
        rw [List.cons_append]
        unfold run at hr ⊢
        cases hs : step s0 o with
        | ok s1 => rw [hs] at hr; exact ih s1 hr
        | err x => rw [hs] at hr; cases hr
        | ub => rw [hs] at hr; cases hr
    exact gen ops _ h2
  · unfold State.beq copy; rw [leavesEq_iff]

/-- C10, clear: the default value everywhere on the same bounds; equal to a new container. -/
theorem C10_clear {dv init : V} {lo hi : Int} {st : State V} (h : Reachable dv lo hi init st) :
    ∃ st', step st .clear = .ok st' ∧ (∀ k, valueAt st'.leaves k = if lo ≤ k ∧ k < hi then some init else none) ∧
      st'.beq (mk dv lo hi init) = true ∧ st'.init = init ∧ st'.valid = false := by
  obtain ⟨v, t, e⟩ := h.inv.wf.exists_cons
  have hl := h.inv.wf.last
  refine ⟨{ st with leaves := [(lo, init), (hi, dv)], root := none, valid := false }, ?_, ?_, ?_, h.inv.init, rfl⟩
  · simp only [step, clear, hl]
    rw [e]; simp [h.inv.init]
  · intro k; simp [valueAt]
  · simp [State.beq, mk, leavesEq]

/-- C10, swap and assignment. -/
theorem C10_swap_assign (a b : State V) :
    (∀ k, valueAt (swap a b).1.leaves k = valueAt b.leaves k) ∧
    (∀ k, valueAt (swap a b).2.leaves k = valueAt a.leaves k) ∧
    (swap a b).1.init = b.init ∧ (swap a b).2.init = a.init ∧
    (assign a b).beq b = true ∧ (assign a b).init = b.init ∧
    (moveOut a).1 = a := by
  refine ⟨fun _ => rfl, fun _ => rfl, rfl, rfl, ?_, rfl, rfl⟩
  simp [State.beq, assign, swap, copy, leavesEq_iff]

example : step demo .clear = .ok ⟨[(0, 0), (100, 0)], 0, none, false⟩ := by decide

/-! ## Absence of undefined behaviour -/

/-- Calls whose arguments the code handles: the range does not end exactly at `min` from below, and
the position belongs to the container. -/
def Op.Safe (lo : Int) (st : State V) : Op V → Prop
  | .insertFront s e _ => ¬ (s < lo ∧ e = lo)
  | .insertBack s e _ => ¬ (s < lo ∧ e = lo)
  | .insertAt p s e _ => ¬ (s < lo ∧ e = lo) ∧ ∀ q, p = some q → q < st.leaves.length
  | _ => True

/-- Every call returns normally on every reachable container, unless it is one of the two misuses. -/
theorem no_ub_partial {dv init : V} {lo hi : Int} {st : State V} (h : Reachable dv lo hi init st)
    (o : Op V) (ho : o.Safe lo st) : ∃ st', step st o = .ok st' := by
  have i := h.inv
  cases o with
  | insertFront s e v =>
    obtain ⟨r, h1, -⟩ := insertSegment_spec i.wf ho v true
    exact ⟨{ st with leaves := r.leaves, valid := if r.changed then false else st.valid },
      by simp only [step, h1, applyIns, Outcome.map]⟩
  | insertBack s e v =>
    obtain ⟨r, h1, -⟩ := insertSegment_spec i.wf ho v false
    exact ⟨{ st with leaves := r.leaves, valid := if r.changed then false else st.valid },
      by simp only [step, h1, applyIns, Outcome.map]⟩
  | insertAt p s e v =>
    obtain ⟨r, h1, -⟩ := insertSegment_spec i.wf ho.1 v true
    rw [← insertHint_eq i.wf s e v p ho.2] at h1
    exact ⟨{ st with leaves := r.leaves, valid := if r.changed then false else st.valid },
      by simp only [step, h1, applyIns, Outcome.map]⟩
  | shiftLeft s e => obtain ⟨st', h1, -⟩ := C07_shift_left h s e; exact ⟨st', h1⟩
  | shiftRight p n k => obtain ⟨st', h1, -⟩ := C08_shift_right h p n k; exact ⟨st', h1⟩
  | buildTree => exact ⟨_, rfl⟩
  | recopy => exact ⟨_, rfl⟩
  | clear => obtain ⟨st', h1, -⟩ := C10_clear h; exact ⟨st', h1⟩

example : (Op.insertAt (some 2) 5 9 1).Safe 0 demo := by simp [Op.Safe, demo]

end Mdds.FST
