import Verif.Quad.Remove2

/-! Helper lemmas: the whole of `remove`, and whole histories. -/
namespace Mdds.Quad

variable {V : Type}

/-- What a `remove(px, py)` that returned did. -/
structure Removed (t t' : Tree V) (px py : Int) : Prop where
  wf : WF t'
  le : ∀ a, cnt a t' ≤ cnt a t
  gone : ∀ a ∈ allData t', ¬ (a.x = px ∧ a.y = py)
  exact : DirectReplacement t px py → ∀ a ∈ allData t, ¬ (a.x = px ∧ a.y = py) → a ∈ allData t'
  lost : ¬ DirectReplacement t px py →
    ∃ a ∈ allData t, ¬ (a.x = px ∧ a.y = py) ∧ a ∉ allData t'

theorem Removed.sub {t t' : Tree V} {px py : Int} (h : Removed t t' px py) {a : Pt V}
    (ha : a ∈ allData t') : a ∈ allData t := by
  rw [mem_iff_cnt] at *; have := h.le a; omega

theorem subtreeAt_here {x y : Int} {d : V} {ok} {ne nw se sw : Tree V} :
    subtreeAt x y (.node x y d ok ne nw se sw) = .node x y d ok ne nw se sw := by
  simp [subtreeAt]

theorem direct_congr {t u : Tree V} {px py : Int} (h : subtreeAt px py t = subtreeAt px py u) :
    DirectReplacement t px py ↔ DirectReplacement u px py := by
  unfold DirectReplacement; rw [h]

theorem isLeaf_iff {x y : Int} {d : V} {ok} {ne nw se sw : Tree V} :
    (Tree.node x y d ok ne nw se sw).isLeaf = true ↔
      ∀ q, (Tree.node x y d ok ne nw se sw).child q = .nil := by
  constructor
  · intro h q
    cases ne <;> cases nw <;> cases se <;> cases sw <;> simp [Tree.isLeaf] at h
    cases q <;> rfl
  · intro h
    have a := h .ne
    have b := h .nw
    have c := h .se
    have e := h .sw
    simp only [Tree.child] at a b c e
    subst a b c e; rfl

theorem not_leaf {x y : Int} {d : V} {ok} {ne nw se sw : Tree V}
    (h : ¬ (Tree.node x y d ok ne nw se sw).isLeaf = true) :
    ∃ q, findReplacement x y (.node x y d ok ne nw se sw) = some q := by
  rw [isLeaf_iff] at h
  push Not at h
  obtain ⟨q, hq⟩ := h
  exact findReplacement_some hq

/-- Leaving everything but one quadrant alone. -/
theorem removed_lift {x y : Int} {d : V} {ok} {ne nw se sw ne' nw' se' sw' : Tree V}
    {px py : Int} {q : Quadrant} (hne : ¬ (x = px ∧ y = py)) (hq : getQuadrant x y px py = q)
    (w : WF (.node x y d ok ne nw se sw))
    (hc : Removed ((Tree.node x y d ok ne nw se sw).child q)
      ((Tree.node x y d ok ne' nw' se' sw').child q) px py)
    (ho : ∀ r, r ≠ q → (Tree.node x y d ok ne' nw' se' sw').child r
      = (Tree.node x y d ok ne nw se sw).child r) :
    Removed (.node x y d ok ne nw se sw) (.node x y d ok ne' nw' se' sw') px py := by
  have sub : ∀ r, ∀ p ∈ allData ((Tree.node x y d ok ne' nw' se' sw').child r),
      p ∈ allData ((Tree.node x y d ok ne nw se sw).child r) := by
    intro r p hp
    by_cases hr : r = q
    · subst hr; exact hc.sub hp
    · rw [ho r hr] at hp; exact hp
  have cle : ∀ r a, cnt a ((Tree.node x y d ok ne' nw' se' sw').child r)
      ≤ cnt a ((Tree.node x y d ok ne nw se sw).child r) := by
    intro r a
    by_cases hr : r = q
    · subst hr; exact hc.le a
    · rw [ho r hr]
  have off : ∀ r, r ≠ q → ∀ p ∈ allData ((Tree.node x y d ok ne nw se sw).child r),
      ¬ (p.x = px ∧ p.y = py) := by
    intro r hr p hp he
    have := (placed_child w r hp).1
    rw [he.1, he.2, hq] at this
    exact hr this.symm
  have wc : ∀ r, WF ((Tree.node x y d ok ne' nw' se' sw').child r) := by
    intro r
    by_cases hr : r = q
    · subst hr; exact hc.wf
    · rw [ho r hr]; exact wf_child w r
  have memc : ∀ {ne nw se sw : Tree V} {p}, p ∈ allData (.node x y d ok ne nw se sw) ↔
      p = ⟨x, y, d⟩ ∨ ∃ r, p ∈ allData ((Tree.node x y d ok ne nw se sw).child r) := by
    intro ne nw se sw p
    rw [mem_node]
    constructor
    · rintro (h | h | h | h | h)
      · exact Or.inl h
      · exact Or.inr ⟨.ne, h⟩
      · exact Or.inr ⟨.nw, h⟩
      · exact Or.inr ⟨.se, h⟩
      · exact Or.inr ⟨.sw, h⟩
    · rintro (h | ⟨r, h⟩)
      · exact Or.inl h
      · cases r <;> simp only [Tree.child] at h <;> simp [h]
  have hsub : subtreeAt px py (.node x y d ok ne nw se sw)
      = subtreeAt px py ((Tree.node x y d ok ne nw se sw).child q) := by
    rw [subtreeAt, if_neg hne, hq]
    cases q <;> rfl
  refine ⟨wf_node (fun p hp => placed_child w .ne (sub .ne p hp))
    (fun p hp => placed_child w .nw (sub .nw p hp)) (fun p hp => placed_child w .se (sub .se p hp))
    (fun p hp => placed_child w .sw (sub .sw p hp)) (wc .ne) (wc .nw) (wc .se) (wc .sw), ?_, ?_, ?_, ?_⟩
  · intro a
    rw [cnt_node, cnt_node]
    have := cle .ne a; have := cle .nw a; have := cle .se a; have := cle .sw a
    simp only [Tree.child] at *
    omega
  · intro a ha
    rcases memc.1 ha with rfl | ⟨r, hr⟩
    · exact hne
    · by_cases h : r = q
      · subst h; exact hc.gone a hr
      · exact off r h a (sub r a hr)
  · intro hd a ha hn
    rw [direct_congr hsub] at hd
    rcases memc.1 ha with h | ⟨r, hr⟩
    · exact memc.2 (Or.inl h)
    · by_cases h : r = q
      · subst h; exact memc.2 (Or.inr ⟨_, hc.exact hd a hr hn⟩)
      · exact memc.2 (Or.inr ⟨r, by rw [ho r h]; exact hr⟩)
  · intro hd
    rw [direct_congr hsub] at hd
    obtain ⟨a, h1, h2, h3⟩ := hc.lost hd
    refine ⟨a, memc.2 (Or.inr ⟨q, h1⟩), h2, fun hin => ?_⟩
    rcases memc.1 hin with h | ⟨r, hr⟩
    · subst h
      exact (placed_child w q h1).2 ⟨rfl, rfl⟩
    · by_cases h : r = q
      · subst h; exact h3 hr
      · have p1 := (placed_child w q h1).1
        have p2 := (placed_child w r (sub r a hr)).1
        exact h (p2.symm.trans p1)

theorem removed_here {x y : Int} {d : V} {ok} {ne nw se sw t' : Tree V}
    (w : WF (.node x y d ok ne nw se sw))
    (h : removeInner (.node x y d ok ne nw se sw) = .ok t')
    (hl : ¬ (Tree.node x y d ok ne nw se sw).isLeaf = true) :
    Removed (.node x y d ok ne nw se sw) t' x y := by
  obtain ⟨q, hq⟩ := not_leaf hl
  obtain ⟨rx, ry, rd, hp, he⟩ := removeInner_core w hq
  rw [he] at h
  cases e1 : adjustQuad (ordered x rx) (ordered y ry) (adjacent q).1.2
      ((Tree.node x y d ok ne nw se sw).child (adjacent q).1.1) with
  | err => simp [e1] at h
  | ub => simp [e1] at h
  | ok r1 =>
    cases e2 : adjustQuad (ordered x rx) (ordered y ry) (adjacent q).2.2
        ((Tree.node x y d ok ne nw se sw).child (adjacent q).2.1) with
    | err => simp [e1, e2] at h
    | ub => simp [e1, e2] at h
    | ok r2 =>
      cases e3 : setNewRoot (ordered x rx) (ordered y ry) (opposite q)
          ((Tree.node x y d ok ne nw se sw).child q) with
      | err => simp [e1, e2, e3] at h
      | ub => simp [e1, e2, e3] at h
      | ok r3 =>
        simp only [e1, e2, e3, Outcome.bind_ok] at h
        obtain ⟨t'', ht, R⟩ := removeInner_spec w hq hp e1 e2 e3
        rw [ht] at h
        simp only [Outcome.ok.injEq] at h
        subst h
        have hdir : DirectReplacement (.node x y d ok ne nw se sw) x y ↔
            ((Tree.node x y d ok ne nw se sw).child q).child (opposite q) = .nil := by
          unfold DirectReplacement
          rw [subtreeAt_here]
          constructor
          · intro h; exact h q hq
          · intro h q' hq'
            rw [hq] at hq'
            simp only [Option.some.injEq] at hq'
            subst hq'; exact h
        have hself : (⟨x, y, d⟩ : Pt V) ∈ allData (.node x y d ok ne nw se sw) :=
          mem_node.2 (Or.inl rfl)
        refine ⟨R.wf, fun a => by have := R.le a; omega, fun a ha hc => ?_, fun hd a ha hn => ?_,
          fun hd => ?_⟩
        · have hin : a ∈ allData (.node x y d ok ne nw se sw) := by
            rw [mem_iff_cnt] at *; have := R.le a; omega
          have := wf_inj w hin hself hc.1 hc.2
          subst this
          have h1 := R.le ⟨x, y, d⟩
          have h2 := cnt_le_one w ⟨x, y, d⟩
          rw [mem_iff_cnt] at ha
          rw [one_self] at h1
          omega
        · have := R.exact (hdir.1 hd) a
          rw [mem_iff_cnt] at *
          have h0 : one a ⟨x, y, d⟩ = 0 := by
            by_contra h
            have : 0 < one a ⟨x, y, d⟩ := by omega
            rw [one_pos] at this
            subst this
            exact hn ⟨rfl, rfl⟩
          omega
        · obtain ⟨a, h1, h2, h3⟩ := R.lost (fun h => hd (hdir.2 h))
          exact ⟨a, h1, fun hc => h2 (wf_inj w h1 hself hc.1 hc.2), h3⟩

/-- The whole walk. -/
theorem removeFrom_spec {px py : Int} {t : Tree V} (w : WF t) : ∀ {top t'},
    removeFrom px py top t = .ok t' → Removed t t' px py := by
  induction t with
  | nil =>
    intro top t' h
    simp only [removeFrom, Outcome.ok.injEq] at h
    subst h
    refine ⟨trivial, fun _ => le_refl _, by simp, by simp, fun hd => absurd ?_ hd⟩
    intro q hq
    simp only [subtreeAt] at hq ⊢
    exact absurd rfl (findReplacement_child hq)
  | node x y d ok ne nw se sw ih1 ih2 ih3 ih4 =>
    intro top t' h
    unfold removeFrom at h
    split at h
    · rename_i hc
      obtain ⟨rfl, rfl⟩ := hc
      split at h
      · rename_i hl
        split at h
        · simp only [Outcome.ok.injEq] at h
          subst h
          rw [isLeaf_iff] at hl
          refine ⟨trivial, fun _ => by simp, by simp, fun _ a ha hn => ?_, fun hd => absurd ?_ hd⟩
          · exfalso
            have a1 := hl .ne; have a2 := hl .nw; have a3 := hl .se; have a4 := hl .sw
            simp only [Tree.child] at a1 a2 a3 a4
            subst a1 a2 a3 a4
            simp [mem_node] at ha
            subst ha
            exact hn ⟨rfl, rfl⟩
          · intro q hq
            rw [subtreeAt_here] at hq
            exact absurd (hl q) (findReplacement_child hq)
        · cases h
      · rename_i hl
        exact removed_here w h hl
    · rename_i hc
      split at h <;> rename_i hq
      · cases e : removeFrom px py false ne <;> simp only [e, Outcome.bind_ok, Outcome.bind_err,
          Outcome.bind_ub, reduceCtorEq, Outcome.pure_eq, Outcome.ok.injEq] at h
        subst h
        refine removed_lift hc hq w (ih1 w.2.2.2.2.1 e) (fun r hr => ?_)
        cases r <;> first | rfl | exact absurd rfl hr
      · cases e : removeFrom px py false nw <;> simp only [e, Outcome.bind_ok, Outcome.bind_err,
          Outcome.bind_ub, reduceCtorEq, Outcome.pure_eq, Outcome.ok.injEq] at h
        subst h
        refine removed_lift hc hq w (ih2 w.2.2.2.2.2.1 e) (fun r hr => ?_)
        cases r <;> first | rfl | exact absurd rfl hr
      · cases e : removeFrom px py false se <;> simp only [e, Outcome.bind_ok, Outcome.bind_err,
          Outcome.bind_ub, reduceCtorEq, Outcome.pure_eq, Outcome.ok.injEq] at h
        subst h
        refine removed_lift hc hq w (ih3 w.2.2.2.2.2.2.1 e) (fun r hr => ?_)
        cases r <;> first | rfl | exact absurd rfl hr
      · cases e : removeFrom px py false sw <;> simp only [e, Outcome.bind_ok, Outcome.bind_err,
          Outcome.bind_ub, reduceCtorEq, Outcome.pure_eq, Outcome.ok.injEq] at h
        subst h
        refine removed_lift hc hq w (ih4 w.2.2.2.2.2.2.2 e) (fun r hr => ?_)
        cases r <;> first | rfl | exact absurd rfl hr

theorem allOk_child {t : Tree V} (h : AllOk t) (q : Quadrant) : AllOk (t.child q) := by
  cases t with
  | nil => trivial
  | node x y d ok ne nw se sw =>
    obtain ⟨_, h1, h2, h3, h4⟩ := h
    cases q <;> assumption

/-- With right parent pointers `remove` returns. -/
theorem removeFrom_ok {px py : Int} {t : Tree V} (w : WF t) (ho : AllOk t) : ∀ {top},
    ∃ t', removeFrom px py top t = .ok t' := by
  induction t with
  | nil => intro top; exact ⟨_, rfl⟩
  | node x y d ok ne nw se sw ih1 ih2 ih3 ih4 =>
    intro top
    unfold removeFrom
    split
    · rename_i hc
      obtain ⟨rfl, rfl⟩ := hc
      split
      · rw [ho.1]; simp
      · rename_i hl
        obtain ⟨q, hq⟩ := not_leaf hl
        obtain ⟨rx, ry, rd, hp, he⟩ := removeInner_core w hq
        obtain ⟨r1, e1⟩ := adjust_ok (xr := ordered x rx) (yr := ordered y ry)
          (dir := (adjacent q).1.2) (allOk_child ho (adjacent q).1.1)
        obtain ⟨r2, e2⟩ := adjust_ok (xr := ordered x rx) (yr := ordered y ry)
          (dir := (adjacent q).2.2) (allOk_child ho (adjacent q).2.1)
        obtain ⟨r3, e3⟩ := setNewRoot_ok (xr := ordered x rx) (yr := ordered y ry)
          (dir := opposite q) (allOk_child ho q)
        obtain ⟨t'', ht, _⟩ := removeInner_spec w hq hp e1 e2 e3
        rw [he, e1, e2, e3]
        simp only [Outcome.bind_ok]
        exact ⟨t'', ht⟩
    · obtain ⟨_, o1, o2, o3, o4⟩ := ho
      obtain ⟨_, _, _, _, w1, w2, w3, w4⟩ := w
      split
      · obtain ⟨c, hc⟩ := ih1 w1 o1 (top := false)
        rw [hc]; exact ⟨_, rfl⟩
      · obtain ⟨c, hc⟩ := ih2 w2 o2 (top := false)
        rw [hc]; exact ⟨_, rfl⟩
      · obtain ⟨c, hc⟩ := ih3 w3 o3 (top := false)
        rw [hc]; exact ⟨_, rfl⟩
      · obtain ⟨c, hc⟩ := ih4 w4 o4 (top := false)
        rw [hc]; exact ⟨_, rfl⟩

theorem allOk_insert {t : Tree V} (h : AllOk t) (px py : Int) (d : V) :
    AllOk (insertPt px py d t) := by
  induction t with
  | nil => simp [insertPt, Tree.leaf, AllOk]
  | node x y d0 ok ne nw se sw ih1 ih2 ih3 ih4 =>
    obtain ⟨o, o1, o2, o3, o4⟩ := h
    unfold insertPt
    split
    · exact ⟨o, o1, o2, o3, o4⟩
    · split
      · exact ⟨o, ih1 o1, o2, o3, o4⟩
      · exact ⟨o, o1, ih2 o2, o3, o4⟩
      · exact ⟨o, o1, o2, ih3 o3, o4⟩
      · exact ⟨o, o1, o2, o3, ih4 o4⟩

theorem runOps_wf (os : List (Op V)) : ∀ {t t' : Tree V}, WF t → runOps t os = .ok t' → WF t' := by
  induction os with
  | nil => intro t t' w h; simp only [runOps, Outcome.ok.injEq] at h; exact h ▸ w
  | cons o os ih =>
    intro t t' w h
    cases o with
    | insert x y d => exact ih (wf_insert w x y d) h
    | clear => exact ih (t := .nil) trivial h
    | remove x y =>
      simp only [runOps, Op.run] at h
      cases e : removePt t x y with
      | ok u => rw [e] at h; exact ih (removeFrom_spec w e).wf h
      | err => rw [e] at h; simp at h
      | ub => rw [e] at h; simp at h

theorem reachable_wf {t : Tree V} (h : Reachable t) : WF t := by
  obtain ⟨os, h⟩ := h
  exact runOps_wf os (t := .nil) trivial h

end Mdds.Quad
