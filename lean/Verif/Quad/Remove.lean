import Verif.Quad.Lemmas

/-! Helper lemmas about `remove` and its parts. -/
namespace Mdds.Quad

variable {V : Type}

open Classical in
/-- How many nodes of `t` hold `a`. -/
noncomputable def cnt (a : Pt V) (t : Tree V) : Nat := (allData t).count a

open Classical in
/-- How many nodes of the listed trees hold `a`. -/
noncomputable def cntL (a : Pt V) (l : List (Tree V)) : Nat := (l.map (cnt a)).sum

open Classical in
/-- 1 when `a` is `p`. -/
noncomputable def one (a p : Pt V) : Nat := if p = a then 1 else 0

@[simp] theorem cnt_nil (a : Pt V) : cnt a (.nil : Tree V) = 0 := by simp [cnt]

theorem cnt_node (a : Pt V) (x y : Int) (d : V) (ok) (ne nw se sw : Tree V) :
    cnt a (.node x y d ok ne nw se sw)
      = one a ⟨x, y, d⟩ + cnt a ne + cnt a nw + cnt a se + cnt a sw := by
  classical
  simp only [cnt, one, allData_node, List.count_cons, List.count_append, beq_iff_eq]
  omega

theorem cnt_leaf (a : Pt V) (p : Pt V) : cnt a (Tree.leaf p.x p.y p.d) = one a p := by
  simp [Tree.leaf, cnt_node]

@[simp] theorem cntL_nil (a : Pt V) : cntL a ([] : List (Tree V)) = 0 := by simp [cntL]
@[simp] theorem cntL_cons (a : Pt V) (t : Tree V) (l : List (Tree V)) :
    cntL a (t :: l) = cnt a t + cntL a l := by simp [cntL]
@[simp] theorem cntL_append (a : Pt V) (l l' : List (Tree V)) :
    cntL a (l ++ l') = cntL a l + cntL a l' := by simp [cntL]

theorem mem_iff_cnt {a : Pt V} {t : Tree V} : a ∈ allData t ↔ 0 < cnt a t := by
  classical
  simp [cnt, List.count_pos_iff]

theorem cnt_le_one {t : Tree V} (h : WF t) (a : Pt V) : cnt a t ≤ 1 := by
  classical
  have := wf_nodup h
  rw [List.nodup_iff_count_le_one] at this
  exact (this a)

theorem one_le (a p : Pt V) : one a p ≤ 1 := by
  unfold one; split <;> omega

theorem one_self (a : Pt V) : one a a = 1 := by simp [one]

theorem one_pos {a p : Pt V} : 0 < one a p ↔ p = a := by
  unfold one; split <;> simp_all

/-- Same position. -/
def Same (p q : Pt V) : Prop := p.x = q.x ∧ p.y = q.y

theorem wf_node {x y : Int} {d : V} {ok} {ne nw se sw : Tree V}
    (h1 : ∀ p ∈ allData ne, Placed .ne x y p) (h2 : ∀ p ∈ allData nw, Placed .nw x y p)
    (h3 : ∀ p ∈ allData se, Placed .se x y p) (h4 : ∀ p ∈ allData sw, Placed .sw x y p)
    (w1 : WF ne) (w2 : WF nw) (w3 : WF se) (w4 : WF sw) : WF (.node x y d ok ne nw se sw) :=
  ⟨h1, h2, h3, h4, w1, w2, w3, w4⟩

theorem in_ne {x y : Int} {d : V} {ok} {ne nw se sw : Tree V} {p : Pt V} (h : p ∈ allData ne) :
    p ∈ allData (.node x y d ok ne nw se sw) := mem_node.2 (Or.inr (Or.inl h))
theorem in_nw {x y : Int} {d : V} {ok} {ne nw se sw : Tree V} {p : Pt V} (h : p ∈ allData nw) :
    p ∈ allData (.node x y d ok ne nw se sw) := mem_node.2 (Or.inr (Or.inr (Or.inl h)))
theorem in_se {x y : Int} {d : V} {ok} {ne nw se sw : Tree V} {p : Pt V} (h : p ∈ allData se) :
    p ∈ allData (.node x y d ok ne nw se sw) := mem_node.2 (Or.inr (Or.inr (Or.inr (Or.inl h))))
theorem in_sw {x y : Int} {d : V} {ok} {ne nw se sw : Tree V} {p : Pt V} (h : p ∈ allData sw) :
    p ∈ allData (.node x y d ok ne nw se sw) := mem_node.2 (Or.inr (Or.inr (Or.inr (Or.inr h))))

/-- `insert_node` places a point whose position is free. -/
theorem insertNode_spec {t : Tree V} (h : WF t) (hn : t ≠ .nil) (p : Pt V)
    (free : ∀ q ∈ allData t, ¬ Same p q) :
    ∃ t', insertNode p t = .ok t' ∧ WF t' ∧ t' ≠ .nil ∧ ∀ a, cnt a t' = one a p + cnt a t := by
  induction t with
  | nil => exact absurd rfl hn
  | node x y d0 ok ne nw se sw ih1 ih2 ih3 ih4 =>
    obtain ⟨h1, h2, h3, h4, w1, w2, w3, w4⟩ := h
    have f0 : ¬ (x = p.x ∧ y = p.y) := fun hc =>
      free ⟨x, y, d0⟩ (by rw [mem_node]; exact Or.inl rfl) ⟨hc.1.symm, hc.2.symm⟩
    have key : ∀ {c : Tree V} {q : Quadrant}, (∀ r ∈ allData c, Placed q x y r) →
        getQuadrant x y p.x p.y = q → ∀ c' : Tree V, (∀ a, cnt a c' = one a p + cnt a c) →
        ∀ r ∈ allData c', Placed q x y r := by
      intro c q hc hq c' hc' r hr
      rw [mem_iff_cnt, hc'] at hr
      by_cases hrp : p = r
      · subst hrp; exact ⟨hq, f0⟩
      · have : ¬ 0 < one r p := by rw [one_pos]; exact hrp
        exact hc r (by rw [mem_iff_cnt]; omega)
    have leafc : ∀ a, cnt a (Tree.leaf p.x p.y p.d) = one a p + cnt a (.nil : Tree V) := by
      intro a; rw [cnt_leaf]; simp
    unfold insertNode
    rw [if_neg f0]
    split <;> rename_i hq
    · cases ne with
      | nil =>
        refine ⟨_, rfl, wf_node (key h1 hq _ leafc) (h2) (h3) (h4) (wf_leaf ..) (w2) (w3) (w4), by simp, fun a => ?_⟩
        rw [cnt_node, cnt_node, leafc]; omega
      | node =>
        obtain ⟨c', e, wc, _, hc⟩ := ih1 w1 (by simp) (fun q hq => free q (in_ne hq))
        refine ⟨_, by simp only [e]; rfl, wf_node (key h1 hq _ hc) (h2) (h3) (h4) (wc) (w2) (w3) (w4), by simp, fun a => ?_⟩
        rw [cnt_node, cnt_node, hc]; omega
    · cases nw with
      | nil =>
        refine ⟨_, rfl, wf_node (h1) (key h2 hq _ leafc) (h3) (h4) (w1) (wf_leaf ..) (w3) (w4), by simp, fun a => ?_⟩
        rw [cnt_node, cnt_node, leafc]; omega
      | node =>
        obtain ⟨c', e, wc, _, hc⟩ := ih2 w2 (by simp) (fun q hq => free q (in_nw hq))
        refine ⟨_, by simp only [e]; rfl, wf_node (h1) (key h2 hq _ hc) (h3) (h4) (w1) (wc) (w3) (w4), by simp, fun a => ?_⟩
        rw [cnt_node, cnt_node, hc]; omega
    · cases se with
      | nil =>
        refine ⟨_, rfl, wf_node (h1) (h2) (key h3 hq _ leafc) (h4) (w1) (w2) (wf_leaf ..) (w4), by simp, fun a => ?_⟩
        rw [cnt_node, cnt_node, leafc]; omega
      | node =>
        obtain ⟨c', e, wc, _, hc⟩ := ih3 w3 (by simp) (fun q hq => free q (in_se hq))
        refine ⟨_, by simp only [e]; rfl, wf_node (h1) (h2) (key h3 hq _ hc) (h4) (w1) (w2) (wc) (w4), by simp, fun a => ?_⟩
        rw [cnt_node, cnt_node, hc]; omega
    · cases sw with
      | nil =>
        refine ⟨_, rfl, wf_node (h1) (h2) (h3) (key h4 hq _ leafc) (w1) (w2) (w3) (wf_leaf ..), by simp, fun a => ?_⟩
        rw [cnt_node, cnt_node, leafc]; omega
      | node =>
        obtain ⟨c', e, wc, _, hc⟩ := ih4 w4 (by simp) (fun q hq => free q (in_sw hq))
        refine ⟨_, by simp only [e]; rfl, wf_node (h1) (h2) (h3) (key h4 hq _ hc) (w1) (w2) (w3) (wc), by simp, fun a => ?_⟩
        rw [cnt_node, cnt_node, hc]; omega

/-- Counting function `f` describes a set of points at pairwise distinct positions. -/
def Distinct (f : Pt V → Nat) : Prop :=
  (∀ a, f a ≤ 1) ∧ ∀ a b, 0 < f a → 0 < f b → Same a b → a = b

theorem Distinct.mono {f g : Pt V → Nat} (h : Distinct f) (hg : ∀ a, g a ≤ f a) : Distinct g :=
  ⟨fun a => le_trans (hg a) (h.1 a), fun a b ha hb => h.2 a b (lt_of_lt_of_le ha (hg a))
    (lt_of_lt_of_le hb (hg b))⟩

theorem wf_distinct {t : Tree V} (h : WF t) : Distinct (fun a => cnt a t) :=
  ⟨cnt_le_one h, fun _ _ ha hb hs => wf_inj h (mem_iff_cnt.2 ha) (mem_iff_cnt.2 hb) hs.1 hs.2⟩

/-- `reinsert_tree` moves all points of the cut tree into the destination. -/
theorem reinsertTree_spec (root : Tree V) : ∀ {dest : Tree V}, WF dest → dest ≠ .nil →
    Distinct (fun a => cnt a dest + cnt a root) →
    ∃ t', reinsertTree dest root = .ok t' ∧ WF t' ∧ t' ≠ .nil ∧
      ∀ a, cnt a t' = cnt a dest + cnt a root := by
  induction root with
  | nil => intro dest w hn _; exact ⟨dest, rfl, w, hn, by simp⟩
  | node x y d0 ok ne nw se sw ih1 ih2 ih3 ih4 =>
    intro dest w hn hd
    simp only [cnt_node] at hd
    obtain ⟨d1, e1, v1, n1, c1⟩ := ih1 w hn (hd.mono (fun a => by first | omega | (dsimp only; omega)))
    obtain ⟨d2, e2, v2, n2, c2⟩ := ih2 v1 n1 (hd.mono (fun a => by simp only [c1]; omega))
    obtain ⟨d3, e3, v3, n3, c3⟩ := ih3 v2 n2 (hd.mono (fun a => by simp only [c2, c1]; omega))
    obtain ⟨d4, e4, v4, n4, c4⟩ := ih4 v3 n3 (hd.mono (fun a => by simp only [c3, c2, c1]; omega))
    obtain ⟨d5, e5, v5, n5, c5⟩ := insertNode_spec v4 n4 ⟨x, y, d0⟩ (by
      intro q hq hs
      rw [mem_iff_cnt, c4, c3, c2, c1] at hq
      have o1 := one_self (⟨x, y, d0⟩ : Pt V)
      have hx : (⟨x, y, d0⟩ : Pt V) = q :=
        hd.2 _ _ (by dsimp only; omega) (by dsimp only; omega) hs
      subst hx
      have h1 := hd.1 ⟨x, y, d0⟩
      dsimp only at h1
      omega)
    refine ⟨d5, ?_, v5, n5, fun a => by rw [c5, c4, c3, c2, c1, cnt_node]; omega⟩
    simp only [reinsertTree, e1, e2, e3, e4, e5, Outcome.bind_ok]

theorem reinsertList_spec (l : List (Tree V)) : ∀ {dest : Tree V}, WF dest → dest ≠ .nil →
    Distinct (fun a => cnt a dest + cntL a l) →
    ∃ t', reinsertList dest l = .ok t' ∧ WF t' ∧ t' ≠ .nil ∧
      ∀ a, cnt a t' = cnt a dest + cntL a l := by
  induction l with
  | nil => intro dest w hn _; exact ⟨dest, rfl, w, hn, by simp⟩
  | cons t l ih =>
    intro dest w hn hd
    simp only [cntL_cons] at hd
    obtain ⟨d1, e1, v1, n1, c1⟩ := reinsertTree_spec t w hn (hd.mono (fun a => by first | omega | (dsimp only; omega)))
    obtain ⟨d2, e2, v2, n2, c2⟩ := ih v1 n1 (hd.mono (fun a => by simp only [c1]; omega))
    exact ⟨d2, by simp only [reinsertList, e1, e2, Outcome.bind_ok], v2, n2,
      fun a => by rw [c2, c1, cntL_cons]; omega⟩

/-- What is left of a tree (`t'`) after cutting the listed subtrees from it. -/
structure Cut (t t' : Tree V) (l : List (Tree V)) : Prop where
  wf : WF t → WF t'
  count : ∀ a, cnt a t' + cntL a l = cnt a t

theorem Cut.sub {t t' : Tree V} {l} (h : Cut t t' l) {p : Pt V} (hp : p ∈ allData t') :
    p ∈ allData t := by
  rw [mem_iff_cnt] at *
  have := h.count p
  omega

/-- Points that stay in a quadrant adjusted in direction `dir` are strictly beyond the hatched
band. -/
def Beyond (xr yr : Int × Int) : Dir → Pt V → Prop
  | .east, p => p.x < xr.1
  | .west, p => xr.2 < p.x
  | .south, p => p.y < yr.1
  | .north, p => yr.2 < p.y

/-- Points of that quadrant before the adjustment. -/
def Upto (xr yr : Int × Int) : Dir → Pt V → Prop
  | .east, p => p.x ≤ xr.2
  | .west, p => xr.1 ≤ p.x
  | .south, p => p.y ≤ yr.2
  | .north, p => yr.1 ≤ p.y

theorem adjust_cut {xr yr : Int × Int} {dir : Dir} {t : Tree V} : ∀ {t' l},
    adjustQuad xr yr dir t = .ok (t', l) → Cut t t' l ∧
      (WF t → (∀ p ∈ allData t, Upto xr yr dir p) → ∀ p ∈ allData t', Beyond xr yr dir p) := by
  induction t with
  | nil =>
    intro t' l h
    simp only [adjustQuad, Outcome.ok.injEq, Prod.mk.injEq] at h
    obtain ⟨rfl, rfl⟩ := h
    exact ⟨⟨id, by simp⟩, by simp⟩
  | node x y d0 ok ne nw se sw ih1 ih2 ih3 ih4 =>
    intro t' l h
    unfold adjustQuad at h
    split at h
    · split at h
      · simp only [Outcome.ok.injEq, Prod.mk.injEq] at h
        obtain ⟨rfl, rfl⟩ := h
        exact ⟨⟨fun _ => trivial, by simp⟩, by simp⟩
      · cases h
    · rename_i hh
      simp only [hatched, decide_eq_true_eq, not_or] at hh
      have two : ∀ {A B A' B' : Tree V} {l1 l2}, Cut A A' l1 → Cut B B' l2 →
          (∀ a, cnt a A' + cntL a l1 = cnt a A) ∧ (∀ a, cnt a B' + cntL a l2 = cnt a B) :=
        fun a b => ⟨a.count, b.count⟩
      cases dir <;> simp only at h
      · -- north
        cases e1 : adjustQuad xr yr .north ne <;> simp only [e1, Outcome.bind_ok, Outcome.bind_err,
          Outcome.bind_ub, reduceCtorEq] at h
        rename_i r1; obtain ⟨c1, l1⟩ := r1
        cases e2 : adjustQuad xr yr .north nw <;> simp only [e2, Outcome.bind_ok, Outcome.bind_err,
          Outcome.bind_ub, reduceCtorEq] at h
        rename_i r2; obtain ⟨c2, l2⟩ := r2
        simp only [Outcome.pure_eq, Outcome.ok.injEq, Prod.mk.injEq] at h
        obtain ⟨rfl, rfl⟩ := h
        obtain ⟨a1, b1⟩ := ih1 e1
        obtain ⟨a2, b2⟩ := ih2 e2
        refine ⟨⟨fun w => ?_, fun a => ?_⟩, fun w hu p hp => ?_⟩
        · obtain ⟨h1, h2, h3, h4, w1, w2, w3, w4⟩ := w
          exact ⟨fun p hp => h1 p (a1.sub hp), fun p hp => h2 p (a2.sub hp), h3, h4,
            a1.wf w1, a2.wf w2, w3, w4⟩
        · rw [cnt_node, cnt_node, cntL_append]
          have := a1.count a; have := a2.count a; omega
        · obtain ⟨h1, h2, h3, h4, w1, w2, w3, w4⟩ := w
          have u0 := hu ⟨x, y, d0⟩ (by rw [mem_node]; exact Or.inl rfl)
          simp only [Upto] at u0
          rw [mem_node] at hp
          rcases hp with rfl | hp | hp | hp | hp
          · simp only [Beyond]; omega
          · exact b1 w1 (fun p hp => hu p (by rw [mem_node]; exact Or.inr (Or.inl hp))) p hp
          · exact b2 w2 (fun p hp => hu p (by rw [mem_node]; exact Or.inr (Or.inr (Or.inl hp)))) p hp
          · have := (h3 p hp).1; rw [getQuadrant_se] at this; simp only [Beyond]; omega
          · have := (h4 p hp).1; rw [getQuadrant_sw] at this; simp only [Beyond]; omega
      · -- west
        cases e1 : adjustQuad xr yr .west nw <;> simp only [e1, Outcome.bind_ok, Outcome.bind_err,
          Outcome.bind_ub, reduceCtorEq] at h
        rename_i r1; obtain ⟨c1, l1⟩ := r1
        cases e2 : adjustQuad xr yr .west sw <;> simp only [e2, Outcome.bind_ok, Outcome.bind_err,
          Outcome.bind_ub, reduceCtorEq] at h
        rename_i r2; obtain ⟨c2, l2⟩ := r2
        simp only [Outcome.pure_eq, Outcome.ok.injEq, Prod.mk.injEq] at h
        obtain ⟨rfl, rfl⟩ := h
        obtain ⟨a1, b1⟩ := ih2 e1
        obtain ⟨a2, b2⟩ := ih4 e2
        refine ⟨⟨fun w => ?_, fun a => ?_⟩, fun w hu p hp => ?_⟩
        · obtain ⟨h1, h2, h3, h4, w1, w2, w3, w4⟩ := w
          exact ⟨h1, fun p hp => h2 p (a1.sub hp), h3, fun p hp => h4 p (a2.sub hp),
            w1, a1.wf w2, w3, a2.wf w4⟩
        · rw [cnt_node, cnt_node, cntL_append]
          have := a1.count a; have := a2.count a; omega
        · obtain ⟨h1, h2, h3, h4, w1, w2, w3, w4⟩ := w
          have u0 := hu ⟨x, y, d0⟩ (by rw [mem_node]; exact Or.inl rfl)
          simp only [Upto] at u0
          rw [mem_node] at hp
          rcases hp with rfl | hp | hp | hp | hp
          · simp only [Beyond]; omega
          · have := (h1 p hp).1; rw [getQuadrant_ne] at this; simp only [Beyond]; omega
          · exact b1 w2 (fun p hp => hu p (by rw [mem_node]; exact Or.inr (Or.inr (Or.inl hp)))) p hp
          · have := (h3 p hp).1; rw [getQuadrant_se] at this; simp only [Beyond]; omega
          · exact b2 w4 (fun p hp => hu p (by rw [mem_node]; exact Or.inr (Or.inr (Or.inr (Or.inr hp))))) p hp
      · -- south
        cases e1 : adjustQuad xr yr .south se <;> simp only [e1, Outcome.bind_ok, Outcome.bind_err,
          Outcome.bind_ub, reduceCtorEq] at h
        rename_i r1; obtain ⟨c1, l1⟩ := r1
        cases e2 : adjustQuad xr yr .south sw <;> simp only [e2, Outcome.bind_ok, Outcome.bind_err,
          Outcome.bind_ub, reduceCtorEq] at h
        rename_i r2; obtain ⟨c2, l2⟩ := r2
        simp only [Outcome.pure_eq, Outcome.ok.injEq, Prod.mk.injEq] at h
        obtain ⟨rfl, rfl⟩ := h
        obtain ⟨a1, b1⟩ := ih3 e1
        obtain ⟨a2, b2⟩ := ih4 e2
        refine ⟨⟨fun w => ?_, fun a => ?_⟩, fun w hu p hp => ?_⟩
        · obtain ⟨h1, h2, h3, h4, w1, w2, w3, w4⟩ := w
          exact ⟨h1, h2, fun p hp => h3 p (a1.sub hp), fun p hp => h4 p (a2.sub hp),
            w1, w2, a1.wf w3, a2.wf w4⟩
        · rw [cnt_node, cnt_node, cntL_append]
          have := a1.count a; have := a2.count a; omega
        · obtain ⟨h1, h2, h3, h4, w1, w2, w3, w4⟩ := w
          have u0 := hu ⟨x, y, d0⟩ (by rw [mem_node]; exact Or.inl rfl)
          simp only [Upto] at u0
          rw [mem_node] at hp
          rcases hp with rfl | hp | hp | hp | hp
          · simp only [Beyond]; omega
          · have := (h1 p hp).1; rw [getQuadrant_ne] at this; simp only [Beyond]; omega
          · have := (h2 p hp).1; rw [getQuadrant_nw] at this; simp only [Beyond]; omega
          · exact b1 w3 (fun p hp => hu p (by rw [mem_node]; exact Or.inr (Or.inr (Or.inr (Or.inl hp))))) p hp
          · exact b2 w4 (fun p hp => hu p (by rw [mem_node]; exact Or.inr (Or.inr (Or.inr (Or.inr hp))))) p hp
      · -- east
        cases e1 : adjustQuad xr yr .east ne <;> simp only [e1, Outcome.bind_ok, Outcome.bind_err,
          Outcome.bind_ub, reduceCtorEq] at h
        rename_i r1; obtain ⟨c1, l1⟩ := r1
        cases e2 : adjustQuad xr yr .east se <;> simp only [e2, Outcome.bind_ok, Outcome.bind_err,
          Outcome.bind_ub, reduceCtorEq] at h
        rename_i r2; obtain ⟨c2, l2⟩ := r2
        simp only [Outcome.pure_eq, Outcome.ok.injEq, Prod.mk.injEq] at h
        obtain ⟨rfl, rfl⟩ := h
        obtain ⟨a1, b1⟩ := ih1 e1
        obtain ⟨a2, b2⟩ := ih3 e2
        refine ⟨⟨fun w => ?_, fun a => ?_⟩, fun w hu p hp => ?_⟩
        · obtain ⟨h1, h2, h3, h4, w1, w2, w3, w4⟩ := w
          exact ⟨fun p hp => h1 p (a1.sub hp), h2, fun p hp => h3 p (a2.sub hp), h4,
            a1.wf w1, w2, a2.wf w3, w4⟩
        · rw [cnt_node, cnt_node, cntL_append]
          have := a1.count a; have := a2.count a; omega
        · obtain ⟨h1, h2, h3, h4, w1, w2, w3, w4⟩ := w
          have u0 := hu ⟨x, y, d0⟩ (by rw [mem_node]; exact Or.inl rfl)
          simp only [Upto] at u0
          rw [mem_node] at hp
          rcases hp with rfl | hp | hp | hp | hp
          · simp only [Beyond]; omega
          · exact b1 w1 (fun p hp => hu p (by rw [mem_node]; exact Or.inr (Or.inl hp))) p hp
          · have := (h2 p hp).1; rw [getQuadrant_nw] at this; simp only [Beyond]; omega
          · exact b2 w3 (fun p hp => hu p (by rw [mem_node]; exact Or.inr (Or.inr (Or.inr (Or.inl hp))))) p hp
          · have := (h4 p hp).1; rw [getQuadrant_sw] at this; simp only [Beyond]; omega

/-- With right parent pointers `adjust_quad` does not throw. -/
theorem adjust_ok {xr yr : Int × Int} {dir : Dir} {t : Tree V} (h : AllOk t) :
    ∃ r, adjustQuad xr yr dir t = .ok r := by
  induction t with
  | nil => exact ⟨_, rfl⟩
  | node x y d0 ok ne nw se sw ih1 ih2 ih3 ih4 =>
    obtain ⟨o, o1, o2, o3, o4⟩ := h
    obtain ⟨⟨a1, b1⟩, e1⟩ := ih1 o1
    obtain ⟨⟨a2, b2⟩, e2⟩ := ih2 o2
    obtain ⟨⟨a3, b3⟩, e3⟩ := ih3 o3
    obtain ⟨⟨a4, b4⟩, e4⟩ := ih4 o4
    unfold adjustQuad
    split
    · simp [o]
    · cases dir <;> simp only [e1, e2, e3, e4, Outcome.bind_ok, Outcome.pure_eq] <;>
        exact ⟨_, rfl⟩

/-- A subtree whose root is hatched is cut whole. -/
theorem adjust_hatched {xr yr : Int × Int} {dir : Dir} {t t' : Tree V} {l}
    (h : adjustQuad xr yr dir t = .ok (t', l))
    (hh : ∀ p ∈ allData t, hatched xr yr p.x p.y = true) : t' = .nil := by
  cases t with
  | nil => simp only [adjustQuad, Outcome.ok.injEq, Prod.mk.injEq] at h; exact h.1.symm
  | node x y d0 ok ne nw se sw =>
    have := hh ⟨x, y, d0⟩ (by rw [mem_node]; exact Or.inl rfl)
    simp only at this
    unfold adjustQuad at h
    rw [if_pos this] at h
    split at h
    · simp only [Outcome.ok.injEq, Prod.mk.injEq] at h; exact h.1.symm
    · cases h

end Mdds.Quad
