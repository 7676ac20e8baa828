import Verif.Quad.Remove

/-! Helper lemmas about `remove`: the replacement, its chain, and the whole call. -/
namespace Mdds.Quad

variable {V : Type}

/-- The point stored at the root of a tree. -/
def Tree.pt : Tree V → Option (Pt V)
  | .nil => none
  | .node x y d _ _ _ _ _ => some ⟨x, y, d⟩

theorem chainEnd_stop {oq : Quadrant} {t : Tree V} (h : t.child oq = .nil) :
    chainEnd oq t = t := by
  cases t with
  | nil => rfl
  | node x y d ok ne nw se sw =>
    cases oq <;> simp only [Tree.child] at h <;> subst h <;> rfl

theorem chainEnd_step {oq : Quadrant} {t : Tree V} (h : t.child oq ≠ .nil) :
    chainEnd oq t = chainEnd oq (t.child oq) := by
  cases t with
  | nil => exact absurd rfl h
  | node x y d ok ne nw se sw =>
    cases oq <;> simp only [Tree.child] at h ⊢
    · cases ne with
      | nil => exact absurd rfl h
      | node => rw [chainEnd]; exact h
    · cases nw with
      | nil => exact absurd rfl h
      | node => rw [chainEnd]; exact h
    · cases se with
      | nil => exact absurd rfl h
      | node => rw [chainEnd]; exact h
    · cases sw with
      | nil => exact absurd rfl h
      | node => rw [chainEnd]; exact h

theorem wf_child {t : Tree V} (h : WF t) (q : Quadrant) : WF (t.child q) := by
  cases t with
  | nil => trivial
  | node x y d ok ne nw se sw =>
    obtain ⟨h1, h2, h3, h4, w1, w2, w3, w4⟩ := h
    cases q <;> assumption

theorem placed_child {x y : Int} {d : V} {ok} {ne nw se sw : Tree V}
    (h : WF (.node x y d ok ne nw se sw)) (q : Quadrant) {p : Pt V}
    (hp : p ∈ allData ((Tree.node x y d ok ne nw se sw).child q)) : Placed q x y p := by
  obtain ⟨h1, h2, h3, h4, w1, w2, w3, w4⟩ := h
  cases q
  · exact h1 p hp
  · exact h2 p hp
  · exact h3 p hp
  · exact h4 p hp

theorem cnt_child_le (a : Pt V) (q : Quadrant) (t : Tree V) : cnt a (t.child q) ≤ cnt a t := by
  cases t with
  | nil => simp [Tree.child]
  | node x y d ok ne nw se sw =>
    rw [cnt_node]
    cases q <;> simp only [Tree.child] <;> omega

theorem size_child_lt {x y : Int} {d : V} {ok} {ne nw se sw : Tree V} (q : Quadrant) :
    size ((Tree.node x y d ok ne nw se sw).child q) < size (.node x y d ok ne nw se sw) := by
  cases q <;> simp only [Tree.child, size] <;> omega

/-- Facts about the node at the end of a chain. -/
theorem chainEnd_facts (oq : Quadrant) (t : Tree V) :
    (t ≠ .nil → chainEnd oq t ≠ .nil) ∧ (WF t → WF (chainEnd oq t)) ∧
      (∀ a, cnt a (chainEnd oq t) ≤ cnt a t) ∧ (chainEnd oq t).child oq = .nil := by
  induction hn : size t using Nat.strong_induction_on generalizing t with
  | _ n ih =>
    cases t with
    | nil => exact ⟨fun h => h, fun h => h, fun a => le_refl _, rfl⟩
    | node x y d ok ne nw se sw =>
      by_cases hc : (Tree.node x y d ok ne nw se sw).child oq = .nil
      · rw [chainEnd_stop hc]
        exact ⟨fun h => h, fun h => h, fun a => le_refl _, hc⟩
      · rw [chainEnd_step hc]
        obtain ⟨i1, i2, i3, i4⟩ := ih _ (hn ▸ size_child_lt oq) _ rfl
        exact ⟨fun _ => i1 hc, fun w => i2 (wf_child w oq),
          fun a => le_trans (i3 a) (cnt_child_le a oq _), i4⟩

/-- What `set_new_root` does to the chain. -/
structure Chained (xr yr : Int × Int) (dir : Quadrant) (t t' : Tree V) : Prop where
  pt : t'.pt = t.pt
  stop : t'.child dir = .nil ↔ t.child dir = .nil
  endPt : (chainEnd dir t').pt = (chainEnd dir t).pt
  endChild : (chainEnd dir t').child (opposite dir) = (chainEnd dir t).child (opposite dir)
  endSide : ∀ s, s = (sides dir).1 ∨ s = (sides dir).2 →
    (∀ p ∈ allData ((chainEnd dir t).child s), hatched xr yr p.x p.y = true) →
    (chainEnd dir t').child s = .nil

theorem pt_none {t : Tree V} : t.pt = none ↔ t = .nil := by
  cases t <;> simp [Tree.pt]

theorem setNewRoot_spec {xr yr : Int × Int} {dir : Quadrant} {t : Tree V} : ∀ {t' l},
    setNewRoot xr yr dir t = .ok (t', l) → Cut t t' l ∧ Chained xr yr dir t t' := by
  induction t with
  | nil =>
    intro t' l h
    simp only [setNewRoot, Outcome.ok.injEq, Prod.mk.injEq] at h
    obtain ⟨rfl, rfl⟩ := h
    exact ⟨⟨id, by simp⟩, ⟨rfl, Iff.rfl, rfl, rfl, fun _ _ _ => rfl⟩⟩
  | node x y d0 ok ne nw se sw ih1 ih2 ih3 ih4 =>
    intro t' l h
    unfold setNewRoot at h
    cases dir <;> simp only at h
    · cases e1 : adjustQuad xr yr .east se <;> simp only [e1, Outcome.bind_ok, Outcome.bind_err,
        Outcome.bind_ub, reduceCtorEq] at h
      rename_i r1; obtain ⟨c1, l1⟩ := r1
      cases e2 : adjustQuad xr yr .north nw <;> simp only [e2, Outcome.bind_ok, Outcome.bind_err,
        Outcome.bind_ub, reduceCtorEq] at h
      rename_i r2; obtain ⟨c2, l2⟩ := r2
      cases e3 : setNewRoot xr yr .ne ne <;> simp only [e3, Outcome.bind_ok, Outcome.bind_err,
        Outcome.bind_ub, reduceCtorEq] at h
      rename_i r3; obtain ⟨c3, l3⟩ := r3
      simp only [Outcome.pure_eq, Outcome.ok.injEq, Prod.mk.injEq] at h
      obtain ⟨rfl, rfl⟩ := h
      obtain ⟨a1, _⟩ := adjust_cut e1
      obtain ⟨a2, _⟩ := adjust_cut e2
      obtain ⟨a3, g⟩ := ih1 e3
      have hne : c3 = .nil ↔ ne = .nil := by rw [← pt_none, ← pt_none, g.pt]
      refine ⟨⟨fun w => ?_, fun a => ?_⟩, ?_⟩
      · obtain ⟨h1, h2, h3, h4, w1, w2, w3, w4⟩ := w
        exact ⟨fun p hp => h1 p (a3.sub hp), fun p hp => h2 p (a2.sub hp),
          fun p hp => h3 p (a1.sub hp), h4, a3.wf w1, a2.wf w2, a1.wf w3, w4⟩
      · rw [cnt_node, cnt_node, cntL_append, cntL_append]
        have := a1.count a; have := a2.count a; have := a3.count a; omega
      · by_cases hc : ne = .nil
        · have hc' := hne.2 hc
          rw [hc, hc']
          refine ⟨rfl, Iff.rfl, rfl, rfl, fun s hs hh => ?_⟩
          rcases hs with rfl | rfl
          · exact adjust_hatched e2 hh
          · exact adjust_hatched e1 hh
        · have hc' : c3 ≠ .nil := fun h => hc (hne.1 h)
          have q1 := chainEnd_step (oq := .ne) (t := .node x y d0 ok ne nw se sw) hc
          have q2 := chainEnd_step (oq := .ne) (t := .node x y d0 ok c3 c2 c1 sw) hc'
          simp only [Tree.child] at q1 q2
          exact ⟨rfl, hne, by rw [q1, q2]; exact g.endPt, by rw [q1, q2]; exact g.endChild,
            by rw [q1, q2]; exact g.endSide⟩
    · cases e1 : adjustQuad xr yr .north ne <;> simp only [e1, Outcome.bind_ok, Outcome.bind_err,
        Outcome.bind_ub, reduceCtorEq] at h
      rename_i r1; obtain ⟨c1, l1⟩ := r1
      cases e2 : adjustQuad xr yr .west sw <;> simp only [e2, Outcome.bind_ok, Outcome.bind_err,
        Outcome.bind_ub, reduceCtorEq] at h
      rename_i r2; obtain ⟨c2, l2⟩ := r2
      cases e3 : setNewRoot xr yr .nw nw <;> simp only [e3, Outcome.bind_ok, Outcome.bind_err,
        Outcome.bind_ub, reduceCtorEq] at h
      rename_i r3; obtain ⟨c3, l3⟩ := r3
      simp only [Outcome.pure_eq, Outcome.ok.injEq, Prod.mk.injEq] at h
      obtain ⟨rfl, rfl⟩ := h
      obtain ⟨a1, _⟩ := adjust_cut e1
      obtain ⟨a2, _⟩ := adjust_cut e2
      obtain ⟨a3, g⟩ := ih2 e3
      have hne : c3 = .nil ↔ nw = .nil := by rw [← pt_none, ← pt_none, g.pt]
      refine ⟨⟨fun w => ?_, fun a => ?_⟩, ?_⟩
      · obtain ⟨h1, h2, h3, h4, w1, w2, w3, w4⟩ := w
        exact ⟨fun p hp => h1 p (a1.sub hp), fun p hp => h2 p (a3.sub hp), h3,
          fun p hp => h4 p (a2.sub hp), a1.wf w1, a3.wf w2, w3, a2.wf w4⟩
      · rw [cnt_node, cnt_node, cntL_append, cntL_append]
        have := a1.count a; have := a2.count a; have := a3.count a; omega
      · by_cases hc : nw = .nil
        · have hc' := hne.2 hc
          rw [hc, hc']
          refine ⟨rfl, Iff.rfl, rfl, rfl, fun s hs hh => ?_⟩
          rcases hs with rfl | rfl
          · exact adjust_hatched e1 hh
          · exact adjust_hatched e2 hh
        · have hc' : c3 ≠ .nil := fun h => hc (hne.1 h)
          have q1 := chainEnd_step (oq := .nw) (t := .node x y d0 ok ne nw se sw) hc
          have q2 := chainEnd_step (oq := .nw) (t := .node x y d0 ok c1 c3 se c2) hc'
          simp only [Tree.child] at q1 q2
          exact ⟨rfl, hne, by rw [q1, q2]; exact g.endPt, by rw [q1, q2]; exact g.endChild,
            by rw [q1, q2]; exact g.endSide⟩
    · cases e1 : adjustQuad xr yr .east ne <;> simp only [e1, Outcome.bind_ok, Outcome.bind_err,
        Outcome.bind_ub, reduceCtorEq] at h
      rename_i r1; obtain ⟨c1, l1⟩ := r1
      cases e2 : adjustQuad xr yr .south sw <;> simp only [e2, Outcome.bind_ok, Outcome.bind_err,
        Outcome.bind_ub, reduceCtorEq] at h
      rename_i r2; obtain ⟨c2, l2⟩ := r2
      cases e3 : setNewRoot xr yr .se se <;> simp only [e3, Outcome.bind_ok, Outcome.bind_err,
        Outcome.bind_ub, reduceCtorEq] at h
      rename_i r3; obtain ⟨c3, l3⟩ := r3
      simp only [Outcome.pure_eq, Outcome.ok.injEq, Prod.mk.injEq] at h
      obtain ⟨rfl, rfl⟩ := h
      obtain ⟨a1, _⟩ := adjust_cut e1
      obtain ⟨a2, _⟩ := adjust_cut e2
      obtain ⟨a3, g⟩ := ih3 e3
      have hne : c3 = .nil ↔ se = .nil := by rw [← pt_none, ← pt_none, g.pt]
      refine ⟨⟨fun w => ?_, fun a => ?_⟩, ?_⟩
      · obtain ⟨h1, h2, h3, h4, w1, w2, w3, w4⟩ := w
        exact ⟨fun p hp => h1 p (a1.sub hp), h2, fun p hp => h3 p (a3.sub hp),
          fun p hp => h4 p (a2.sub hp), a1.wf w1, w2, a3.wf w3, a2.wf w4⟩
      · rw [cnt_node, cnt_node, cntL_append, cntL_append]
        have := a1.count a; have := a2.count a; have := a3.count a; omega
      · by_cases hc : se = .nil
        · have hc' := hne.2 hc
          rw [hc, hc']
          refine ⟨rfl, Iff.rfl, rfl, rfl, fun s hs hh => ?_⟩
          rcases hs with rfl | rfl
          · exact adjust_hatched e1 hh
          · exact adjust_hatched e2 hh
        · have hc' : c3 ≠ .nil := fun h => hc (hne.1 h)
          have q1 := chainEnd_step (oq := .se) (t := .node x y d0 ok ne nw se sw) hc
          have q2 := chainEnd_step (oq := .se) (t := .node x y d0 ok c1 nw c3 c2) hc'
          simp only [Tree.child] at q1 q2
          exact ⟨rfl, hne, by rw [q1, q2]; exact g.endPt, by rw [q1, q2]; exact g.endChild,
            by rw [q1, q2]; exact g.endSide⟩
    · cases e1 : adjustQuad xr yr .west nw <;> simp only [e1, Outcome.bind_ok, Outcome.bind_err,
        Outcome.bind_ub, reduceCtorEq] at h
      rename_i r1; obtain ⟨c1, l1⟩ := r1
      cases e2 : adjustQuad xr yr .south se <;> simp only [e2, Outcome.bind_ok, Outcome.bind_err,
        Outcome.bind_ub, reduceCtorEq] at h
      rename_i r2; obtain ⟨c2, l2⟩ := r2
      cases e3 : setNewRoot xr yr .sw sw <;> simp only [e3, Outcome.bind_ok, Outcome.bind_err,
        Outcome.bind_ub, reduceCtorEq] at h
      rename_i r3; obtain ⟨c3, l3⟩ := r3
      simp only [Outcome.pure_eq, Outcome.ok.injEq, Prod.mk.injEq] at h
      obtain ⟨rfl, rfl⟩ := h
      obtain ⟨a1, _⟩ := adjust_cut e1
      obtain ⟨a2, _⟩ := adjust_cut e2
      obtain ⟨a3, g⟩ := ih4 e3
      have hne : c3 = .nil ↔ sw = .nil := by rw [← pt_none, ← pt_none, g.pt]
      refine ⟨⟨fun w => ?_, fun a => ?_⟩, ?_⟩
      · obtain ⟨h1, h2, h3, h4, w1, w2, w3, w4⟩ := w
        exact ⟨h1, fun p hp => h2 p (a1.sub hp), fun p hp => h3 p (a2.sub hp),
          fun p hp => h4 p (a3.sub hp), w1, a1.wf w2, a2.wf w3, a3.wf w4⟩
      · rw [cnt_node, cnt_node, cntL_append, cntL_append]
        have := a1.count a; have := a2.count a; have := a3.count a; omega
      · by_cases hc : sw = .nil
        · have hc' := hne.2 hc
          rw [hc, hc']
          refine ⟨rfl, Iff.rfl, rfl, rfl, fun s hs hh => ?_⟩
          rcases hs with rfl | rfl
          · exact adjust_hatched e1 hh
          · exact adjust_hatched e2 hh
        · have hc' : c3 ≠ .nil := fun h => hc (hne.1 h)
          have q1 := chainEnd_step (oq := .sw) (t := .node x y d0 ok ne nw se sw) hc
          have q2 := chainEnd_step (oq := .sw) (t := .node x y d0 ok ne c1 c2 c3) hc'
          simp only [Tree.child] at q1 q2
          exact ⟨rfl, hne, by rw [q1, q2]; exact g.endPt, by rw [q1, q2]; exact g.endChild,
            by rw [q1, q2]; exact g.endSide⟩

theorem setNewRoot_ok {xr yr : Int × Int} {dir : Quadrant} {t : Tree V} (h : AllOk t) :
    ∃ r, setNewRoot xr yr dir t = .ok r := by
  induction t with
  | nil => exact ⟨_, rfl⟩
  | node x y d0 ok ne nw se sw ih1 ih2 ih3 ih4 =>
    obtain ⟨o, o1, o2, o3, o4⟩ := h
    obtain ⟨⟨a1, b1⟩, e1⟩ := ih1 o1
    obtain ⟨⟨a2, b2⟩, e2⟩ := ih2 o2
    obtain ⟨⟨a3, b3⟩, e3⟩ := ih3 o3
    obtain ⟨⟨a4, b4⟩, e4⟩ := ih4 o4
    have q := fun dir => adjust_ok (xr := xr) (yr := yr) (dir := dir) o1
    have q' := fun dir => adjust_ok (xr := xr) (yr := yr) (dir := dir) o2
    have q'' := fun dir => adjust_ok (xr := xr) (yr := yr) (dir := dir) o3
    have q''' := fun dir => adjust_ok (xr := xr) (yr := yr) (dir := dir) o4
    unfold setNewRoot
    cases dir <;> simp only
    · obtain ⟨⟨_, _⟩, f1⟩ := q'' .east
      obtain ⟨⟨_, _⟩, f2⟩ := q' .north
      simp only [f1, f2, e1, Outcome.bind_ok, Outcome.pure_eq]; exact ⟨_, rfl⟩
    · obtain ⟨⟨_, _⟩, f1⟩ := q .north
      obtain ⟨⟨_, _⟩, f2⟩ := q''' .west
      simp only [f1, f2, e2, Outcome.bind_ok, Outcome.pure_eq]; exact ⟨_, rfl⟩
    · obtain ⟨⟨_, _⟩, f1⟩ := q .east
      obtain ⟨⟨_, _⟩, f2⟩ := q''' .south
      simp only [f1, f2, e3, Outcome.bind_ok, Outcome.pure_eq]; exact ⟨_, rfl⟩
    · obtain ⟨⟨_, _⟩, f1⟩ := q' .west
      obtain ⟨⟨_, _⟩, f2⟩ := q'' .south
      simp only [f1, f2, e4, Outcome.bind_ok, Outcome.pure_eq]; exact ⟨_, rfl⟩

/-! ### The replacement -/

theorem improve_some {c : Option (Quadrant × Int)} {q q' : Quadrant} {d d' : Int}
    (h : improve c q d = some (q', d')) : q' = q ∨ c = some (q', d') := by
  unfold improve at h
  split at h
  · simp at h; exact Or.inl h.1.symm
  · split at h
    · simp at h; exact Or.inl h.1.symm
    · exact Or.inr h

theorem improve_isSome (c : Option (Quadrant × Int)) (q : Quadrant) (d : Int) :
    ∃ r, improve c q d = some r := by
  unfold improve; split
  · exact ⟨_, rfl⟩
  · split <;> exact ⟨_, rfl⟩

/-- Quadrants recorded by the candidate search hold a child. -/
def Recorded (del : Tree V) (b : Best) : Prop :=
  ∀ q d, b.dx = some (q, d) ∨ b.city = some (q, d) → del.child q ≠ .nil

theorem findCandidate_recorded (x y : Int) (del : Tree V) (q : Quadrant) {b : Best}
    (h : Recorded del b) : Recorded del (findCandidate x y del q b) := by
  unfold findCandidate
  split
  · exact h
  · rename_i hc
    have hq : del.child q ≠ .nil := by
      intro h0; rw [h0] at hc; simp [chainEnd] at hc
    intro q' d' hd
    rcases hd with hd | hd
    · rcases improve_some hd with rfl | hd
      · exact hq
      · exact h q' d' (Or.inl hd)
    · rcases improve_some hd with rfl | hd
      · exact hq
      · exact h q' d' (Or.inr hd)

theorem findCandidate_city (x y : Int) (del : Tree V) (q : Quadrant) (b : Best)
    (h : del.child q ≠ .nil ∨ b.city ≠ none) : (findCandidate x y del q b).city ≠ none := by
  unfold findCandidate
  split
  · rename_i hc
    rcases h with h | h
    · exact absurd hc ((chainEnd_facts _ _).1 h)
    · exact h
  · intro hn
    obtain ⟨r, hr⟩ := improve_isSome b.city q _
    simp only at hn
    rw [hr] at hn
    cases hn

/-- The chosen quadrant has a child. -/
theorem findReplacement_child {x y : Int} {del : Tree V} {q : Quadrant}
    (h : findReplacement x y del = some q) : del.child q ≠ .nil := by
  unfold findReplacement at h
  have r0 : Recorded del ({} : Best) := by intro q d hd; simp at hd
  have r1 := findCandidate_recorded x y del .se (findCandidate_recorded x y del .sw
    (findCandidate_recorded x y del .nw (findCandidate_recorded x y del .ne r0)))
  generalize findCandidate x y del .se (findCandidate x y del .sw
    (findCandidate x y del .nw (findCandidate x y del .ne {}))) = b at h r1
  simp only at h
  split at h
  · cases hb : b.dx with
    | none => simp [hb] at h
    | some r => simp [hb] at h; exact r1 q r.2 (Or.inl (by rw [hb, ← h]))
  · cases hb : b.city with
    | none => simp [hb] at h
    | some r => simp [hb] at h; exact r1 q r.2 (Or.inr (by rw [hb, ← h]))

/-- A node with a child has a replacement. -/
theorem findReplacement_some {x y : Int} {del : Tree V} {q : Quadrant} (h : del.child q ≠ .nil) :
    ∃ q', findReplacement x y del = some q' := by
  unfold findReplacement
  have r : (findCandidate x y del .se (findCandidate x y del .sw
    (findCandidate x y del .nw (findCandidate x y del .ne {})))).city ≠ none := by
    cases q
    · exact findCandidate_city _ _ _ _ _ (Or.inr (findCandidate_city _ _ _ _ _ (Or.inr
        (findCandidate_city _ _ _ _ _ (Or.inr (findCandidate_city _ _ _ _ _ (Or.inl h)))))))
    · exact findCandidate_city _ _ _ _ _ (Or.inr (findCandidate_city _ _ _ _ _ (Or.inr
        (findCandidate_city _ _ _ _ _ (Or.inl h)))))
    · exact findCandidate_city _ _ _ _ _ (Or.inl h)
    · exact findCandidate_city _ _ _ _ _ (Or.inr (findCandidate_city _ _ _ _ _ (Or.inl h)))
  generalize findCandidate x y del .se (findCandidate x y del .sw
    (findCandidate x y del .nw (findCandidate x y del .ne {}))) = b at r
  simp only
  split
  · rename_i hc
    rcases hc.2 with h' | h' <;> exact ⟨_, h'⟩
  · cases hb : b.city with
    | none => exact absurd hb r
    | some r => exact ⟨r.1, by simp⟩

/-! ### Geometry of the four cases -/

theorem ordered_spec (a b : Int) :
    ((ordered a b).1 ≤ a ∧ (ordered a b).1 ≤ b ∧ a ≤ (ordered a b).2 ∧ b ≤ (ordered a b).2) ∧
      ((ordered a b).1 = a ∧ (ordered a b).2 = b ∨ (ordered a b).1 = b ∧ (ordered a b).2 = a) := by
  unfold ordered; split <;> simp <;> omega

section geometry
variable {x y rx ry : Int} {q : Quadrant}

theorem geo_upto1 (h : getQuadrant x y rx ry = q) {p : Pt V} (hp : Placed (adjacent q).1.1 x y p) :
    Upto (ordered x rx) (ordered y ry) (adjacent q).1.2 p := by
  have hp := hp.1
  have ox := ordered_spec x rx
  have oy := ordered_spec y ry
  cases q <;> simp only [adjacent, Upto, getQuadrant_ne, getQuadrant_nw, getQuadrant_se,
    getQuadrant_sw] at * <;> omega

theorem geo_upto2 (h : getQuadrant x y rx ry = q) {p : Pt V} (hp : Placed (adjacent q).2.1 x y p) :
    Upto (ordered x rx) (ordered y ry) (adjacent q).2.2 p := by
  have hp := hp.1
  have ox := ordered_spec x rx
  have oy := ordered_spec y ry
  cases q <;> simp only [adjacent, Upto, getQuadrant_ne, getQuadrant_nw, getQuadrant_se,
    getQuadrant_sw] at * <;> omega

theorem geo_stay1 (h : getQuadrant x y rx ry = q) {p : Pt V} (hp : Placed (adjacent q).1.1 x y p)
    (hb : Beyond (ordered x rx) (ordered y ry) (adjacent q).1.2 p) :
    Placed (adjacent q).1.1 rx ry p := by
  have hp := hp.1
  have ox := ordered_spec x rx
  have oy := ordered_spec y ry
  cases q <;> simp only [adjacent, Beyond, Placed, getQuadrant_ne, getQuadrant_nw, getQuadrant_se,
    getQuadrant_sw] at * <;> omega

theorem geo_stay2 (h : getQuadrant x y rx ry = q) {p : Pt V} (hp : Placed (adjacent q).2.1 x y p)
    (hb : Beyond (ordered x rx) (ordered y ry) (adjacent q).2.2 p) :
    Placed (adjacent q).2.1 rx ry p := by
  have hp := hp.1
  have ox := ordered_spec x rx
  have oy := ordered_spec y ry
  cases q <;> simp only [adjacent, Beyond, Placed, getQuadrant_ne, getQuadrant_nw, getQuadrant_se,
    getQuadrant_sw] at * <;> omega

theorem geo_opposite (h : getQuadrant x y rx ry = q) (hne : ¬ (x = rx ∧ y = ry)) {p : Pt V}
    (hp : Placed (opposite q) x y p) :
    Placed (opposite q) rx ry p := by
  have hp := hp.1
  cases q <;> simp only [opposite, Placed, getQuadrant_ne, getQuadrant_nw, getQuadrant_se,
    getQuadrant_sw] at * <;> omega

theorem geo_hatched (h : getQuadrant x y rx ry = q) {p : Pt V} (hp : Placed q x y p) {s : Quadrant}
    (hs : s = (sides q).1 ∨ s = (sides q).2) (hr : Placed s rx ry p) :
    hatched (ordered x rx) (ordered y ry) p.x p.y = true := by
  have hp := hp.1
  have hr := hr.1
  have ox := ordered_spec x rx
  have oy := ordered_spec y ry
  rcases hs with rfl | rfl <;> cases q <;> simp only [sides, hatched, getQuadrant_ne,
    getQuadrant_nw, getQuadrant_se, getQuadrant_sw, decide_eq_true_eq] at * <;> omega

end geometry

/-- The tree `removeInner` reinserts the cut subtrees into. -/
def newNode (q : Quadrant) (p : Pt V) (c1 c2 cq co : Tree V) : Tree V :=
  match q with
  | .ne => .node p.x p.y p.d false cq c1 c2 co
  | .nw => .node p.x p.y p.d false c1 cq co c2
  | .se => .node p.x p.y p.d false c1 co cq c2
  | .sw => .node p.x p.y p.d false co c1 c2 cq

theorem allData_setOk (t : Tree V) (b : Bool) : allData (t.setOk b) = allData t := by
  cases t <;> rfl

theorem wf_setOk {t : Tree V} (b : Bool) (h : WF t) : WF (t.setOk b) := by
  cases t <;> exact h

theorem sides_opposite (q : Quadrant) : sides (opposite q) = sides q := by cases q <;> rfl
theorem opposite_opposite (q : Quadrant) : opposite (opposite q) = q := by cases q <;> rfl

theorem cnt_split (a : Pt V) (q : Quadrant) (x y : Int) (d : V) (ok) (ne nw se sw : Tree V) :
    cnt a (.node x y d ok ne nw se sw) = one a ⟨x, y, d⟩
      + cnt a ((Tree.node x y d ok ne nw se sw).child q)
      + cnt a ((Tree.node x y d ok ne nw se sw).child (adjacent q).1.1)
      + cnt a ((Tree.node x y d ok ne nw se sw).child (adjacent q).2.1)
      + cnt a ((Tree.node x y d ok ne nw se sw).child (opposite q)) := by
  rw [cnt_node]; cases q <;> simp only [Tree.child, adjacent, opposite] <;> omega

theorem cnt_newNode (a : Pt V) (q : Quadrant) (p : Pt V) (c1 c2 cq co : Tree V) :
    cnt a (newNode q p c1 c2 cq co) = one a p + cnt a c1 + cnt a c2 + cnt a cq + cnt a co := by
  cases p
  cases q <;> simp only [newNode, cnt_node] <;> omega

theorem wf_newNode {q : Quadrant} {p : Pt V} {c1 c2 cq co : Tree V}
    (h1 : ∀ r ∈ allData c1, Placed (adjacent q).1.1 p.x p.y r)
    (h2 : ∀ r ∈ allData c2, Placed (adjacent q).2.1 p.x p.y r)
    (hq : ∀ r ∈ allData cq, Placed q p.x p.y r)
    (ho : ∀ r ∈ allData co, Placed (opposite q) p.x p.y r)
    (w1 : WF c1) (w2 : WF c2) (wq : WF cq) (wo : WF co) : WF (newNode q p c1 c2 cq co) := by
  cases q
  · exact ⟨hq, h1, h2, ho, wq, w1, w2, wo⟩
  · exact ⟨h1, hq, ho, h2, w1, wq, wo, w2⟩
  · exact ⟨h1, ho, hq, h2, w1, wo, wq, w2⟩
  · exact ⟨ho, h1, h2, hq, wo, w1, w2, wq⟩

theorem reinsertTreeAt_nil (dest : Tree V) (q : Quadrant) : reinsertTreeAt dest q .nil = .ok dest :=
  rfl

/-- Removing a node with children: what happens to every stored point. -/
theorem removeInner_core {x y : Int} {d : V} {ok} {ne nw se sw : Tree V} {q : Quadrant}
    (w : WF (.node x y d ok ne nw se sw))
    (hq : findReplacement x y (.node x y d ok ne nw se sw) = some q) :
    ∃ (rx ry : Int) (rd : V), (chainEnd (opposite q)
        ((Tree.node x y d ok ne nw se sw).child q)).pt = some ⟨rx, ry, rd⟩ ∧
      removeInner (.node x y d ok ne nw se sw) = (do
        let r1 ← adjustQuad (ordered x rx) (ordered y ry) (adjacent q).1.2
          ((Tree.node x y d ok ne nw se sw).child (adjacent q).1.1)
        let r2 ← adjustQuad (ordered x rx) (ordered y ry) (adjacent q).2.2
          ((Tree.node x y d ok ne nw se sw).child (adjacent q).2.1)
        let r3 ← setNewRoot (ordered x rx) (ordered y ry) (opposite q)
          ((Tree.node x y d ok ne nw se sw).child q)
        reinsertList (newNode q ⟨rx, ry, rd⟩ r1.1 r2.1
          (((chainEnd (opposite q) r3.1).child q).setOk false)
          ((Tree.node x y d ok ne nw se sw).child (opposite q))) (r1.2 ++ r2.2 ++ r3.2)) := by
  have hc := findReplacement_child hq
  have hce := (chainEnd_facts (opposite q) ((Tree.node x y d ok ne nw se sw).child q)).1 hc
  obtain ⟨rx, ry, rd, rok, n1, n2, n3, n4, hr⟩ : ∃ rx ry rd rok n1 n2 n3 n4,
      chainEnd (opposite q) ((Tree.node x y d ok ne nw se sw).child q)
        = .node rx ry rd rok n1 n2 n3 n4 := by
    cases h : chainEnd (opposite q) ((Tree.node x y d ok ne nw se sw).child q) with
    | nil => exact absurd h hce
    | node a b c e n1 n2 n3 n4 => exact ⟨a, b, c, e, n1, n2, n3, n4, rfl⟩
  have hmem : (⟨rx, ry, rd⟩ : Pt V) ∈ allData ((Tree.node x y d ok ne nw se sw).child q) := by
    rw [mem_iff_cnt]
    refine lt_of_lt_of_le ?_ ((chainEnd_facts (opposite q) _).2.2.1 _)
    rw [hr, ← mem_iff_cnt, mem_node]; exact Or.inl rfl
  have hpl := placed_child w q hmem
  have wR : WF (.node rx ry rd rok n1 n2 n3 n4) := hr ▸ (chainEnd_facts (opposite q) _).2.1 (wf_child w q)
  refine ⟨rx, ry, rd, by rw [hr]; rfl, ?_⟩
  have hgq : getQuadrant x y rx ry = q := hpl.1
  unfold removeInner
  simp only [hq, hr]
  rw [if_neg (by simp [hgq])]
  cases e1 : adjustQuad (ordered x rx) (ordered y ry) (adjacent q).1.2
      ((Tree.node x y d ok ne nw se sw).child (adjacent q).1.1) with
  | err => rfl
  | ub => rfl
  | ok r1 =>
    obtain ⟨c1, l1⟩ := r1
    simp only [Outcome.bind_ok]
    cases e2 : adjustQuad (ordered x rx) (ordered y ry) (adjacent q).2.2
        ((Tree.node x y d ok ne nw se sw).child (adjacent q).2.1) with
    | err => rfl
    | ub => rfl
    | ok r2 =>
      obtain ⟨c2, l2⟩ := r2
      simp only [Outcome.bind_ok]
      cases e3 : setNewRoot (ordered x rx) (ordered y ry) (opposite q)
          ((Tree.node x y d ok ne nw se sw).child q) with
      | err => rfl
      | ub => rfl
      | ok r3 =>
        obtain ⟨c3, l3⟩ := r3
        simp only [Outcome.bind_ok]
        obtain ⟨cut3, g⟩ := setNewRoot_spec e3
        have side : ∀ s, s = (sides q).1 ∨ s = (sides q).2 → (chainEnd (opposite q) c3).child s = .nil := by
          intro s hs
          refine g.endSide s (by rw [sides_opposite]; exact hs) (fun p hp => ?_)
          rw [hr] at hp
          have p1 := placed_child wR s hp
          have : p ∈ allData ((Tree.node x y d ok ne nw se sw).child q) := by
            rw [mem_iff_cnt]
            refine lt_of_lt_of_le ?_ ((chainEnd_facts (opposite q) _).2.2.1 _)
            rw [hr]
            exact lt_of_lt_of_le (mem_iff_cnt.1 hp) (cnt_child_le _ _ _)
          exact geo_hatched hgq (placed_child w q this) hs p1
        rw [side _ (Or.inl rfl), side _ (Or.inr rfl)]
        simp only [reinsertTreeAt_nil, Outcome.bind_ok]
        congr 1
        cases q <;> rfl

/-- The points that vanish with the chain between the removed node and its replacement. -/
structure RemovedInner (q : Quadrant) (del t' : Tree V) (p : Pt V) : Prop where
  wf : WF t'
  ne : t' ≠ .nil
  le : ∀ a, cnt a t' + one a p ≤ cnt a del
  exact : (del.child q).child (opposite q) = .nil → ∀ a, cnt a t' + one a p = cnt a del
  lost : (del.child q).child (opposite q) ≠ .nil →
    ∃ a ∈ allData del, a ≠ p ∧ a ∉ allData t'

theorem removeInner_spec {x y : Int} {d : V} {ok} {ne nw se sw : Tree V} {q : Quadrant}
    (w : WF (.node x y d ok ne nw se sw))
    (hq : findReplacement x y (.node x y d ok ne nw se sw) = some q)
    {r1 r2 r3 : Tree V × List (Tree V)} {rx ry : Int} {rd : V}
    (hp : (chainEnd (opposite q)
        ((Tree.node x y d ok ne nw se sw).child q)).pt = some ⟨rx, ry, rd⟩)
    (e1 : adjustQuad (ordered x rx) (ordered y ry) (adjacent q).1.2
          ((Tree.node x y d ok ne nw se sw).child (adjacent q).1.1) = .ok r1)
    (e2 : adjustQuad (ordered x rx) (ordered y ry) (adjacent q).2.2
          ((Tree.node x y d ok ne nw se sw).child (adjacent q).2.1) = .ok r2)
    (e3 : setNewRoot (ordered x rx) (ordered y ry) (opposite q)
          ((Tree.node x y d ok ne nw se sw).child q) = .ok r3) :
    ∃ t', reinsertList (newNode q ⟨rx, ry, rd⟩ r1.1 r2.1
          (((chainEnd (opposite q) r3.1).child q).setOk false)
          ((Tree.node x y d ok ne nw se sw).child (opposite q))) (r1.2 ++ r2.2 ++ r3.2) = .ok t' ∧
      RemovedInner q (.node x y d ok ne nw se sw) t' ⟨x, y, d⟩ := by
  have hc := findReplacement_child hq
  obtain ⟨rok, n1, n2, n3, n4, hr⟩ : ∃ rok n1 n2 n3 n4,
      chainEnd (opposite q) ((Tree.node x y d ok ne nw se sw).child q)
        = .node rx ry rd rok n1 n2 n3 n4 := by
    cases h : chainEnd (opposite q) ((Tree.node x y d ok ne nw se sw).child q) with
    | nil => rw [h] at hp; cases hp
    | node a b c e n1 n2 n3 n4 =>
      rw [h] at hp
      simp only [Tree.pt, Option.some.injEq, Pt.mk.injEq] at hp
      obtain ⟨rfl, rfl, rfl⟩ := hp
      exact ⟨e, n1, n2, n3, n4, rfl⟩
  obtain ⟨k1, k2, k3, k4⟩ := chainEnd_facts (opposite q) ((Tree.node x y d ok ne nw se sw).child q)
  have hmem : (⟨rx, ry, rd⟩ : Pt V) ∈ allData ((Tree.node x y d ok ne nw se sw).child q) := by
    rw [mem_iff_cnt]
    refine lt_of_lt_of_le ?_ (k3 _)
    rw [hr, ← mem_iff_cnt, mem_node]; exact Or.inl rfl
  have hpl := placed_child w q hmem
  have hgq : getQuadrant x y rx ry = q := hpl.1
  have wR : WF (.node rx ry rd rok n1 n2 n3 n4) := hr ▸ k2 (wf_child w q)
  obtain ⟨c1, l1⟩ := r1
  obtain ⟨c2, l2⟩ := r2
  obtain ⟨c3, l3⟩ := r3
  obtain ⟨cut1, b1⟩ := adjust_cut e1
  obtain ⟨cut2, b2⟩ := adjust_cut e2
  obtain ⟨cut3, g⟩ := setNewRoot_spec e3
  have b1 := b1 (wf_child w _) (fun p hp => geo_upto1 hgq (placed_child w _ hp))
  have b2 := b2 (wf_child w _) (fun p hp => geo_upto2 hgq (placed_child w _ hp))
  obtain ⟨f1, f2, f3, f4⟩ := chainEnd_facts (opposite q) c3
  -- the chain end after cutting
  have hR3 : (chainEnd (opposite q) c3).pt = some ⟨rx, ry, rd⟩ := by rw [g.endPt, hr]; rfl
  have hch : (chainEnd (opposite q) c3).child q = (Tree.node rx ry rd rok n1 n2 n3 n4).child q := by
    have := g.endChild
    rw [opposite_opposite, hr] at this; exact this
  have side : ∀ s, s = (sides q).1 ∨ s = (sides q).2 → (chainEnd (opposite q) c3).child s = .nil := by
    intro s hs
    refine g.endSide s (by rw [sides_opposite]; exact hs) (fun p hp => ?_)
    rw [hr] at hp
    have p1 := placed_child wR s hp
    have : p ∈ allData ((Tree.node x y d ok ne nw se sw).child q) := by
      rw [mem_iff_cnt]
      refine lt_of_lt_of_le ?_ (k3 _)
      rw [hr]
      exact lt_of_lt_of_le (mem_iff_cnt.1 hp) (cnt_child_le _ _ _)
    exact geo_hatched hgq (placed_child w q this) hs p1
  have endcnt : ∀ a, cnt a (chainEnd (opposite q) c3)
      = one a ⟨rx, ry, rd⟩ + cnt a ((Tree.node rx ry rd rok n1 n2 n3 n4).child q) := by
    intro a
    rw [← hch]
    have s1 := side _ (Or.inl rfl)
    have s2 := side _ (Or.inr rfl)
    cases hX : chainEnd (opposite q) c3 with
    | nil => rw [hX] at hR3; cases hR3
    | node ax ay ad aok m1 m2 m3 m4 =>
      rw [hX] at hR3 s1 s2 f4
      simp only [Tree.pt, Option.some.injEq] at hR3
      rw [cnt_node, hR3]
      cases q <;> simp only [sides, Tree.child, opposite] at s1 s2 f4 ⊢ <;> subst s1 s2 f4 <;> simp
  have wN : WF (newNode q ⟨rx, ry, rd⟩ c1 c2 (((chainEnd (opposite q) c3).child q).setOk false)
      ((Tree.node x y d ok ne nw se sw).child (opposite q))) := by
    refine wf_newNode (fun p hp => geo_stay1 hgq (placed_child w _ (cut1.sub hp)) (b1 p hp))
      (fun p hp => geo_stay2 hgq (placed_child w _ (cut2.sub hp)) (b2 p hp)) ?_
      (fun p hp => geo_opposite hgq hpl.2 (placed_child w _ hp)) (cut1.wf (wf_child w _))
      (cut2.wf (wf_child w _)) (wf_setOk _ (wf_child (f2 (cut3.wf (wf_child w _))) _))
      (wf_child w _)
    intro p hp
    rw [allData_setOk, hch] at hp
    exact placed_child wR q hp
  have total : ∀ a, cnt a (newNode q ⟨rx, ry, rd⟩ c1 c2 (((chainEnd (opposite q) c3).child q).setOk false)
      ((Tree.node x y d ok ne nw se sw).child (opposite q))) + cntL a (l1 ++ l2 ++ l3)
        + one a ⟨x, y, d⟩ + (cnt a c3 - cnt a (chainEnd (opposite q) c3))
        = cnt a (.node x y d ok ne nw se sw) := by
    intro a
    have t1 := cut1.count a
    have t2 := cut2.count a
    have t3 := cut3.count a
    have t4 := endcnt a
    have t5 := f3 a
    rw [cnt_newNode, cnt_split a q x y d ok ne nw se sw, cntL_append, cntL_append]
    have : cnt a (((chainEnd (opposite q) c3).child q).setOk false)
        = cnt a ((Tree.node rx ry rd rok n1 n2 n3 n4).child q) := by
      unfold cnt; rw [allData_setOk, hch]
    rw [this]
    omega
  obtain ⟨t', e, w', hn', hc'⟩ := reinsertList_spec (l1 ++ l2 ++ l3) wN (by cases q <;> simp [newNode])
    ((wf_distinct w).mono (fun a => by have := total a; omega))
  refine ⟨t', e, w', hn', fun a => ?_, fun hd a => ?_, fun hd => ?_⟩
  · have := total a; rw [hc']; omega
  · have := total a
    rw [chainEnd_stop (g.stop.2 hd)] at this
    rw [hc']
    rw [chainEnd_stop (g.stop.2 hd)]
    omega
  · -- the first node of the chain is lost
    cases hC : (Tree.node x y d ok ne nw se sw).child q with
    | nil => exact absurd hC hc
    | node u v ud uok m1 m2 m3 m4 =>
      have hu : (⟨u, v, ud⟩ : Pt V) ∈ allData ((Tree.node x y d ok ne nw se sw).child q) := by
        rw [hC, mem_node]; exact Or.inl rfl
      have hdel : (⟨u, v, ud⟩ : Pt V) ∈ allData (.node x y d ok ne nw se sw) := by
        rw [mem_iff_cnt] at hu ⊢
        exact lt_of_lt_of_le hu (cnt_child_le _ _ _)
      refine ⟨⟨u, v, ud⟩, hdel, ?_, ?_⟩
      · intro he
        simp only [Pt.mk.injEq] at he
        exact (placed_child w q hu).2 ⟨he.1.symm, he.2.1.symm⟩
      · intro hin
        rw [mem_iff_cnt, hc'] at hin
        have ht := total ⟨u, v, ud⟩
        have hle := cnt_le_one w ⟨u, v, ud⟩
        -- the chain's first node is in c3 but not at its end
        have hc3 : c3.pt = some ⟨u, v, ud⟩ := by rw [g.pt, hC]; rfl
        have hstep : c3.child (opposite q) ≠ .nil := fun h => hd (g.stop.1 h)
        have in3 : 0 < cnt ⟨u, v, ud⟩ c3 := by
          rw [← mem_iff_cnt]
          cases c3 with
          | nil => cases hc3
          | node => simp only [Tree.pt, Option.some.injEq] at hc3; rw [mem_node, hc3]; exact Or.inl rfl
        have notend : ¬ 0 < cnt ⟨u, v, ud⟩ (chainEnd (opposite q) c3) := by
          rw [chainEnd_step hstep]
          intro hpos
          have hpos := lt_of_lt_of_le hpos ((chainEnd_facts (opposite q) _).2.2.1 _)
          have w3 : WF c3 := cut3.wf (wf_child w _)
          cases c3 with
          | nil => cases hc3
          | node cx cy cd cok j1 j2 j3 j4 =>
            simp only [Tree.pt, Option.some.injEq, Pt.mk.injEq] at hc3
            have := (placed_child w3 (opposite q) (mem_iff_cnt.2 hpos)).2
            exact this ⟨hc3.1, hc3.2.1⟩
        omega

end Mdds.Quad
