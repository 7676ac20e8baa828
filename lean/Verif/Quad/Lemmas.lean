import Verif.Quad.Spec
import Mathlib.Data.List.Nodup
import Mathlib.Data.List.Perm.Basic

namespace Mdds.Quad

variable {V : Type}

theorem getQuadrant_ne {x y a b : Int} : getQuadrant x y a b = .ne ↔ x ≤ a ∧ b < y := by
  unfold getQuadrant; repeat' split
  all_goals simp; try omega
theorem getQuadrant_nw {x y a b : Int} : getQuadrant x y a b = .nw ↔ a < x ∧ b < y := by
  unfold getQuadrant; repeat' split
  all_goals simp; try omega
theorem getQuadrant_se {x y a b : Int} : getQuadrant x y a b = .se ↔ x ≤ a ∧ y ≤ b := by
  unfold getQuadrant; repeat' split
  all_goals simp; try omega
theorem getQuadrant_sw {x y a b : Int} : getQuadrant x y a b = .sw ↔ a < x ∧ y ≤ b := by
  unfold getQuadrant; repeat' split
  all_goals simp; try omega

@[simp] theorem allData_nil : allData (.nil : Tree V) = [] := rfl
theorem allData_node (x y : Int) (d : V) (ok) (ne nw se sw : Tree V) :
    allData (.node x y d ok ne nw se sw)
      = ⟨x, y, d⟩ :: (allData ne ++ allData nw ++ allData se ++ allData sw) := rfl

theorem mem_node {x y : Int} {d : V} {ok} {ne nw se sw : Tree V} {p : Pt V} :
    p ∈ allData (.node x y d ok ne nw se sw) ↔
      p = ⟨x, y, d⟩ ∨ p ∈ allData ne ∨ p ∈ allData nw ∨ p ∈ allData se ∨ p ∈ allData sw := by
  simp [allData_node, or_assoc]

/-- The walk finds exactly the stored datum. -/
theorem findNode_iff {t : Tree V} (h : WF t) (px py : Int) (d : V) :
    findNode px py t = some d ↔ (⟨px, py, d⟩ : Pt V) ∈ allData t := by
  induction t with
  | nil => simp [findNode]
  | node x y d0 ok ne nw se sw ih1 ih2 ih3 ih4 =>
    obtain ⟨h1, h2, h3, h4, w1, w2, w3, w4⟩ := h
    rw [mem_node]
    have n1 := h1 ⟨px, py, d⟩
    have n2 := h2 ⟨px, py, d⟩
    have n3 := h3 ⟨px, py, d⟩
    have n4 := h4 ⟨px, py, d⟩
    simp only [Placed] at n1 n2 n3 n4
    unfold findNode
    split
    · rename_i hc
      have e1 : (⟨px, py, d⟩ : Pt V) ∉ allData ne := fun hm => (n1 hm).2 hc
      have e2 : (⟨px, py, d⟩ : Pt V) ∉ allData nw := fun hm => (n2 hm).2 hc
      have e3 : (⟨px, py, d⟩ : Pt V) ∉ allData se := fun hm => (n3 hm).2 hc
      have e4 : (⟨px, py, d⟩ : Pt V) ∉ allData sw := fun hm => (n4 hm).2 hc
      simp [e1, e2, e3, e4, hc, eq_comm]
    · rename_i hc
      have e0 : (⟨px, py, d⟩ : Pt V) ≠ ⟨x, y, d0⟩ := by
        intro he; simp only [Pt.mk.injEq] at he; exact hc ⟨he.1.symm, he.2.1.symm⟩
      split <;> rename_i hq
      · rw [ih1 w1]
        have e2 : (⟨px, py, d⟩ : Pt V) ∉ allData nw := fun hm => by simpa [hq] using (n2 hm).1
        have e3 : (⟨px, py, d⟩ : Pt V) ∉ allData se := fun hm => by simpa [hq] using (n3 hm).1
        have e4 : (⟨px, py, d⟩ : Pt V) ∉ allData sw := fun hm => by simpa [hq] using (n4 hm).1
        simp only [e0, e2, e3, e4, or_false, false_or]
      · rw [ih2 w2]
        have e1 : (⟨px, py, d⟩ : Pt V) ∉ allData ne := fun hm => by simpa [hq] using (n1 hm).1
        have e3 : (⟨px, py, d⟩ : Pt V) ∉ allData se := fun hm => by simpa [hq] using (n3 hm).1
        have e4 : (⟨px, py, d⟩ : Pt V) ∉ allData sw := fun hm => by simpa [hq] using (n4 hm).1
        simp only [e0, e1, e3, e4, or_false, false_or]
      · rw [ih3 w3]
        have e1 : (⟨px, py, d⟩ : Pt V) ∉ allData ne := fun hm => by simpa [hq] using (n1 hm).1
        have e2 : (⟨px, py, d⟩ : Pt V) ∉ allData nw := fun hm => by simpa [hq] using (n2 hm).1
        have e4 : (⟨px, py, d⟩ : Pt V) ∉ allData sw := fun hm => by simpa [hq] using (n4 hm).1
        simp only [e0, e1, e2, e4, or_false, false_or]
      · rw [ih4 w4]
        have e1 : (⟨px, py, d⟩ : Pt V) ∉ allData ne := fun hm => by simpa [hq] using (n1 hm).1
        have e2 : (⟨px, py, d⟩ : Pt V) ∉ allData nw := fun hm => by simpa [hq] using (n2 hm).1
        have e3 : (⟨px, py, d⟩ : Pt V) ∉ allData se := fun hm => by simpa [hq] using (n3 hm).1
        simp only [e0, e1, e2, e3, or_false, false_or]

/-- A tree stores at most one point at each position. -/
theorem wf_inj {t : Tree V} (h : WF t) {p q : Pt V} (hp : p ∈ allData t) (hq : q ∈ allData t)
    (hx : p.x = q.x) (hy : p.y = q.y) : p = q := by
  have a := (findNode_iff h p.x p.y p.d).2 hp
  have b := (findNode_iff h q.x q.y q.d).2 hq
  rw [hx, hy, b] at a
  cases p; cases q; simp_all

theorem wf_nodup {t : Tree V} (h : WF t) : (allData t).Nodup := by
  induction t with
  | nil => simp
  | node x y d0 ok ne nw se sw ih1 ih2 ih3 ih4 =>
    obtain ⟨h1, h2, h3, h4, w1, w2, w3, w4⟩ := h
    have dj : ∀ {a b : Tree V} {q r : Quadrant}, q ≠ r → (∀ p ∈ allData a, Placed q x y p) →
        (∀ p ∈ allData b, Placed r x y p) → (allData a).Disjoint (allData b) := by
      intro a b q r hqr ha hb p hp hp'
      exact hqr ((ha p hp).1.symm.trans (hb p hp').1)
    rw [allData_node, List.nodup_cons]
    refine ⟨?_, ?_⟩
    · simp only [List.mem_append, not_or]
      refine ⟨⟨⟨fun hm => ?_, fun hm => ?_⟩, fun hm => ?_⟩, fun hm => ?_⟩
      · exact (h1 _ hm).2 ⟨rfl, rfl⟩
      · exact (h2 _ hm).2 ⟨rfl, rfl⟩
      · exact (h3 _ hm).2 ⟨rfl, rfl⟩
      · exact (h4 _ hm).2 ⟨rfl, rfl⟩
    · have q1 := ih1 w1
      have q2 := ih2 w2
      have q3 := ih3 w3
      have q4 := ih4 w4
      refine List.Nodup.append (List.Nodup.append (List.Nodup.append q1 q2 (dj (by decide) h1 h2))
        q3 ?_) q4 ?_
      · intro p hp; rw [List.mem_append] at hp
        rcases hp with hp | hp
        · exact dj (by decide) h1 h3 hp
        · exact dj (by decide) h2 h3 hp
      · intro p hp; simp only [List.mem_append] at hp
        rcases hp with (hp | hp) | hp
        · exact dj (by decide) h1 h4 hp
        · exact dj (by decide) h2 h4 hp
        · exact dj (by decide) h3 h4 hp

theorem mem_leaf {px py : Int} {d : V} {p : Pt V} :
    p ∈ allData (Tree.leaf px py d) ↔ p = ⟨px, py, d⟩ := by
  simp [Tree.leaf, mem_node]

theorem wf_leaf (px py : Int) (d : V) : WF (Tree.leaf px py d) := by
  simp [Tree.leaf, WF]

theorem comb {A B C D E K Q : Prop} (a : A → ¬ K) (b : B → ¬ K) (c : C → ¬ K) (d : D → ¬ K) :
    ((A ∨ (Q ∨ (E ∧ ¬ K)) ∨ B ∨ C ∨ D) ↔ (Q ∨ ((A ∨ E ∨ B ∨ C ∨ D) ∧ ¬ K))) := by
  by_cases hk : K
  · have a' : ¬ A := fun h => a h hk
    have b' : ¬ B := fun h => b h hk
    have c' : ¬ C := fun h => c h hk
    have d' : ¬ D := fun h => d h hk
    simp [hk, a', b', c', d']
  · simp only [hk, not_false_eq_true, and_true]
    clear a b c d hk
    by_cases hQ : Q <;> by_cases hA : A <;> simp [hQ, hA]

/-- What `insert` does to the stored points. -/
theorem mem_insert {t : Tree V} (h : WF t) (px py : Int) (pd : V) (p : Pt V) :
    p ∈ allData (insertPt px py pd t) ↔
      p = ⟨px, py, pd⟩ ∨ (p ∈ allData t ∧ ¬ (p.x = px ∧ p.y = py)) := by
  induction t with
  | nil => simp [insertPt, mem_leaf]
  | node x y d0 ok ne nw se sw ih1 ih2 ih3 ih4 =>
    obtain ⟨h1, h2, h3, h4, w1, w2, w3, w4⟩ := h
    have e1 : p ∈ allData ne → Placed .ne x y p := h1 p
    have e2 : p ∈ allData nw → Placed .nw x y p := h2 p
    have e3 : p ∈ allData se → Placed .se x y p := h3 p
    have e4 : p ∈ allData sw → Placed .sw x y p := h4 p
    have key : ∀ q : Quadrant, Placed q x y p → getQuadrant x y px py ≠ q →
        ¬ (p.x = px ∧ p.y = py) := by
      intro q hp hq hc
      apply hq; rw [← hc.1, ← hc.2]; exact hp.1
    unfold insertPt
    split
    · rename_i hc
      have k : ∀ q : Quadrant, Placed q x y p → ¬ (p.x = px ∧ p.y = py) := by
        intro q hp hh; exact hp.2 ⟨hc.1.trans hh.1.symm, hc.2.trans hh.2.symm⟩
      have e0 : p = ⟨x, y, d0⟩ → (p.x = px ∧ p.y = py) := by
        rintro rfl; exact hc
      obtain ⟨rfl, rfl⟩ := hc
      simp only [mem_node]
      constructor
      · rintro (h | h | h | h | h)
        · exact Or.inl h
        · exact Or.inr ⟨Or.inr (Or.inl h), k _ (e1 h)⟩
        · exact Or.inr ⟨Or.inr (Or.inr (Or.inl h)), k _ (e2 h)⟩
        · exact Or.inr ⟨Or.inr (Or.inr (Or.inr (Or.inl h))), k _ (e3 h)⟩
        · exact Or.inr ⟨Or.inr (Or.inr (Or.inr (Or.inr h))), k _ (e4 h)⟩
      · rintro (h | ⟨h | h, hn⟩)
        · exact Or.inl h
        · exact absurd (e0 h) hn
        · exact Or.inr h
    · rename_i hc
      have e0 : p = ⟨x, y, d0⟩ → ¬ (p.x = px ∧ p.y = py) := by
        rintro rfl; exact hc
      split <;> rename_i hq <;> simp only [mem_node]
      · rw [ih1 w1]
        exact comb e0 (fun hh => key _ (e2 hh) (by simp [hq]))
          (fun hh => key _ (e3 hh) (by simp [hq])) (fun hh => key _ (e4 hh) (by simp [hq]))
      · rw [ih2 w2]
        have := @comb (p = ⟨x, y, d0⟩) (p ∈ allData ne) (p ∈ allData se) (p ∈ allData sw)
          (p ∈ allData nw) _ (p = ⟨px, py, pd⟩) e0 (fun hh => key _ (e1 hh) (by simp [hq]))
          (fun hh => key _ (e3 hh) (by simp [hq])) (fun hh => key _ (e4 hh) (by simp [hq]))
        rw [or_left_comm (a := p ∈ allData nw) (b := p ∈ allData ne)] at this
        rw [or_left_comm (a := p ∈ allData ne)]
        exact this
      · rw [ih3 w3]
        have := @comb (p = ⟨x, y, d0⟩) (p ∈ allData ne) (p ∈ allData nw) (p ∈ allData sw)
          (p ∈ allData se) _ (p = ⟨px, py, pd⟩) e0 (fun hh => key _ (e1 hh) (by simp [hq]))
          (fun hh => key _ (e2 hh) (by simp [hq])) (fun hh => key _ (e4 hh) (by simp [hq]))
        rw [or_left_comm (b := p ∈ allData ne) (a := p ∈ allData se),
          or_left_comm (b := p ∈ allData nw) (a := p ∈ allData se)] at this
        rw [or_left_comm (a := p ∈ allData nw), or_left_comm (a := p ∈ allData ne)]
        exact this
      · rw [ih4 w4]
        have := @comb (p = ⟨x, y, d0⟩) (p ∈ allData ne) (p ∈ allData nw) (p ∈ allData se)
          (p ∈ allData sw) _ (p = ⟨px, py, pd⟩) e0 (fun hh => key _ (e1 hh) (by simp [hq]))
          (fun hh => key _ (e2 hh) (by simp [hq])) (fun hh => key _ (e3 hh) (by simp [hq]))
        rw [or_left_comm (b := p ∈ allData ne) (a := p ∈ allData sw),
          or_left_comm (b := p ∈ allData nw) (a := p ∈ allData sw),
          or_comm (b := p ∈ allData se) (a := p ∈ allData sw)] at this
        rw [or_comm (a := p ∈ allData se), or_left_comm (a := p ∈ allData nw),
          or_left_comm (a := p ∈ allData ne)]
        exact this

theorem wf_insert {t : Tree V} (h : WF t) (px py : Int) (pd : V) : WF (insertPt px py pd t) := by
  induction t with
  | nil => exact wf_leaf ..
  | node x y d0 ok ne nw se sw ih1 ih2 ih3 ih4 =>
    obtain ⟨h1, h2, h3, h4, w1, w2, w3, w4⟩ := h
    have key : ∀ {c : Tree V} {q : Quadrant}, WF c → (∀ p ∈ allData c, Placed q x y p) →
        getQuadrant x y px py = q → ¬ (x = px ∧ y = py) →
        ∀ p ∈ allData (insertPt px py pd c), Placed q x y p := by
      intro c q wc hc hq hne p hp
      rw [mem_insert wc] at hp
      rcases hp with rfl | hp
      · exact ⟨hq, hne⟩
      · exact hc p hp.1
    unfold insertPt
    split
    · exact ⟨h1, h2, h3, h4, w1, w2, w3, w4⟩
    · rename_i hc
      split <;> rename_i hq
      · exact ⟨key w1 h1 hq hc, h2, h3, h4, ih1 w1, w2, w3, w4⟩
      · exact ⟨h1, key w2 h2 hq hc, h3, h4, w1, ih2 w2, w3, w4⟩
      · exact ⟨h1, h2, key w3 h3 hq hc, h4, w1, w2, ih3 w3, w4⟩
      · exact ⟨h1, h2, h3, key w4 h4 hq hc, w1, w2, w3, ih4 w4⟩

theorem searchSpace_spec (x y x1 y1 x2 y2 : Int) :
    match searchSpace x y x1 y1 x2 y2 with
    | .center => x1 ≤ x ∧ x ≤ x2 ∧ y1 ≤ y ∧ y ≤ y2
    | .east => x2 < x
    | .west => x < x1
    | .north => y < y1
    | .south => y2 < y
    | .northeast => x2 < x ∧ y < y1
    | .northwest => x < x1 ∧ y < y1
    | .southeast => x2 < x ∧ y2 < y
    | .southwest => x < x1 ∧ y2 < y := by
  unfold searchSpace
  by_cases a : x < x1 <;> by_cases b : x1 ≤ x ∧ x ≤ x2 <;> by_cases c : y < y1 <;>
    by_cases e : y1 ≤ y ∧ y ≤ y2 <;>
    simp only [a, b, c, e, if_true, if_false, and_true, and_self, true_and] <;> omega

/-- Pruned search is the filtered list of all points. -/
theorem search_eq {t : Tree V} (h : WF t) (x1 y1 x2 y2 : Int) :
    searchRegion x1 y1 x2 y2 t
      = (allData t).filter (fun p => decide (x1 ≤ p.x ∧ p.x ≤ x2 ∧ y1 ≤ p.y ∧ p.y ≤ y2)) := by
  induction t with
  | nil => rfl
  | node x y d0 ok ne nw se sw ih1 ih2 ih3 ih4 =>
    obtain ⟨h1, h2, h3, h4, w1, w2, w3, w4⟩ := h
    have out : ∀ {c : Tree V} {q : Quadrant}, (∀ p ∈ allData c, Placed q x y p) →
        (∀ a b : Int, getQuadrant x y a b = q → ¬ (x1 ≤ a ∧ a ≤ x2 ∧ y1 ≤ b ∧ b ≤ y2)) →
        (allData c).filter (fun p => decide (x1 ≤ p.x ∧ p.x ≤ x2 ∧ y1 ≤ p.y ∧ p.y ≤ y2)) = [] := by
      intro c q hc hn
      rw [List.filter_eq_nil_iff]
      intro p hp
      simpa using hn _ _ (hc p hp).1
    have o1 := out h1
    have o2 := out h2
    have o3 := out h3
    have o4 := out h4
    simp only [getQuadrant_ne, getQuadrant_nw, getQuadrant_se, getQuadrant_sw] at o1 o2 o3 o4
    have sp := searchSpace_spec x y x1 y1 x2 y2
    unfold searchRegion
    rw [ih1 w1, ih2 w2, ih3 w3, ih4 w4, allData_node]
    simp only [List.filter_cons, List.filter_append, decide_eq_true_eq]
    clear ih1 ih2 ih3 ih4 out
    generalize searchSpace x y x1 y1 x2 y2 = s at sp
    cases s <;> simp only at sp ⊢
    case center => rw [if_pos sp]
    case northwest =>
      rw [if_neg (by omega), o1 (by intros; omega), o2 (by intros; omega), o4 (by intros; omega)]
      simp
    case north => rw [if_neg (by omega), o1 (by intros; omega), o2 (by intros; omega)]; simp
    case northeast =>
      rw [if_neg (by omega), o1 (by intros; omega), o2 (by intros; omega), o3 (by intros; omega)]
      simp
    case east => rw [if_neg (by omega), o1 (by intros; omega), o3 (by intros; omega)]; simp
    case southeast =>
      rw [if_neg (by omega), o1 (by intros; omega), o3 (by intros; omega), o4 (by intros; omega)]
      simp
    case south => rw [if_neg (by omega), o3 (by intros; omega), o4 (by intros; omega)]; simp
    case southwest =>
      rw [if_neg (by omega), o2 (by intros; omega), o3 (by intros; omega), o4 (by intros; omega)]
      simp
    case west => rw [if_neg (by omega), o2 (by intros; omega), o4 (by intros; omega)]; simp

theorem size_eq (t : Tree V) : size t = (allData t).length := by
  induction t with
  | nil => rfl
  | node x y d0 ok ne nw se sw ih1 ih2 ih3 ih4 =>
    simp [size, allData_node, ih1, ih2, ih3, ih4]; omega

end Mdds.Quad
