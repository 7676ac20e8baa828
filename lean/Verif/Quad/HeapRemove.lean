import Verif.Quad.HeapInner4
/-!
`remove` in the heap.
-/
namespace Mdds.Quad

open AT

variable {V : Type}

namespace AT

/-- The subtree at a point. -/
def sub (x y : Int) : AT V → AT V
  | nil => nil
  | node a x0 y0 d ok kids => if x0 = x ∧ y0 = y then node a x0 y0 d ok kids else sub x y (kids (getQuadrant x0 y0 x y))

/-- Another subtree in its place. -/
def rep (x y : Int) (u : AT V) : AT V → AT V
  | nil => nil
  | node a x0 y0 d ok kids => if x0 = x ∧ y0 = y then u else
      node a x0 y0 d ok (updQ kids (getQuadrant x0 y0 x y) (rep x y u (kids (getQuadrant x0 y0 x y))))

/-- In the model. -/
def repT (x y : Int) (u : Tree V) : AT V → Tree V
  | nil => .nil
  | node _ x0 y0 d ok kids => if x0 = x ∧ y0 = y then u else
      mk x0 y0 d ok (updQ (fun q => (kids q).tree) (getQuadrant x0 y0 x y) (repT x y u (kids (getQuadrant x0 y0 x y))))

theorem rep_tree (x y : Int) (u : AT V) (t : AT V) : (rep x y u t).tree = repT x y u.tree t := by
  induction t with
  | nil => rfl
  | node a x0 y0 d ok kids ih =>
    simp only [rep, repT]
    split
    · rfl
    · show mk _ _ _ _ _ = _
      rw [updQ_map, ih]

theorem look_child {x y : Int} {a : Nat} {x0 y0 : Int} {d : V} {ok : Bool} {kids : Quadrant → AT V} {w : Nat} (hm : ¬ (x0 = x ∧ y0 = y))
    (h : look x y (node a x0 y0 d ok kids) = some (w, none)) : look x y (kids (getQuadrant x0 y0 x y)) = some (w, none) := by
  simp only [look, if_neg hm] at h
  split at h
  · cases h
  · next hs => rw [hs]; exact h

theorem sub_root {x y : Int} {t : AT V} {w : Nat} (h : look x y t = some (w, none)) : (sub x y t).root = some w := by
  induction t with
  | nil => cases h
  | node a x0 y0 d ok kids ih =>
    by_cases hm : x0 = x ∧ y0 = y
    · simp only [look, if_pos hm] at h; cases h
      simp only [sub, if_pos hm]; rfl
    · simp only [sub, if_neg hm]
      exact ih _ (look_child hm h)

theorem sub_le (x y : Int) (t : AT V) (b : Nat) : (sub x y t).cnt b ≤ t.cnt b := by
  induction t with
  | nil => exact Nat.le_refl _
  | node a x0 y0 d ok kids ih =>
    simp only [sub]
    split
    · exact Nat.le_refl _
    · have h1 := ih (getQuadrant x0 y0 x y); have h2 := cnt_le kids (getQuadrant x0 y0 x y) b
      rw [cnt_node]; omega

theorem rep_cnt {x y : Int} {t : AT V} {w : Nat} (u : AT V) (h : look x y t = some (w, none)) (b : Nat) : (rep x y u t).cnt b + (sub x y t).cnt b = t.cnt b + u.cnt b := by
  induction t with
  | nil => cases h
  | node a x0 y0 d ok kids ih =>
    by_cases hm : x0 = x ∧ y0 = y
    · simp only [sub, rep, if_pos hm]; omega
    · simp only [sub, rep, if_neg hm]
      have h1 := ih _ (look_child hm h)
      have h2 := cntK_upd kids (getQuadrant x0 y0 x y) (rep x y u (kids (getQuadrant x0 y0 x y))) b
      rw [cnt_node, cnt_node]; omega

theorem rep_root {x y : Int} {t u : AT V} (h : u.root = (sub x y t).root) : (rep x y u t).root = t.root := by
  cases t with
  | nil => rfl
  | node a x0 y0 d ok kids =>
    by_cases hm : x0 = x ∧ y0 = y
    · simp only [sub, rep, if_pos hm] at h ⊢; exact h
    · simp only [rep, if_neg hm]; rfl

end AT

theorem sub_sh {I : Nat → Prop} {m : Mem V} (x y : Int) {t : AT V} (h : Sh I m t) : Sh I m (sub x y t) := by
  induction t with
  | nil => exact h
  | node a x0 y0 d ok kids ih =>
    simp only [sub]
    split
    · exact h
    · exact ih _ (h.2 _).1

theorem removeFrom_mk (px py : Int) (top : Bool) (x y : Int) (d : V) (ok : Bool) (k : Quadrant → Tree V) : removeFrom px py top (mk x y d ok k) =
    if x = px ∧ y = py then (if (mk x y d ok k).isLeaf then (if top || ok then .ok .nil else .err .general) else removeInner (mk x y d ok k))
    else (removeFrom px py false (k (getQuadrant x y px py))).bind fun c => .ok (mk x y d ok (updQ k (getQuadrant x y px py) c)) := by
  rw [mk, removeFrom.eq_def]
  dsimp only
  split
  · rfl
  · cases getQuadrant x y px py <;> rfl

/-- The point is not there. -/
theorem removeFrom_absent {px py : Int} {top : Bool} {t : AT V} {w : Nat} {q : Quadrant} (h : look px py t = some (w, some q)) : removeFrom px py top t.tree = .ok t.tree := by
  induction t generalizing top with
  | nil => cases h
  | node a x y d ok kids ih =>
    show removeFrom px py top (mk x y d ok fun q => (kids q).tree) = _
    rw [removeFrom_mk]
    simp only [look] at h
    by_cases hm : x = px ∧ y = py
    · rw [if_pos hm] at h; cases h
    · rw [if_neg hm] at h ⊢
      split at h
      · next hn =>
        cases h
        rw [look_none] at hn
        simp only [hn]
        show Outcome.ok _ = Outcome.ok (mk x y d ok _)
        congr 2
        funext z; simp only [updQ]; split
        · next e => rw [e, hn]; rfl
        · rfl
      · next hs =>
        cases h
        rw [ih _ hs]
        show Outcome.ok _ = Outcome.ok (mk x y d ok _)
        congr 2
        funext z; simp only [updQ]; split
        · next e => rw [e]
        · rfl

/-- The point is there: what happens to its subtree happens to the tree. -/
theorem removeFrom_sub {px py : Int} {t : AT V} {w : Nat} (h : look px py t = some (w, none)) :
    removeFrom px py false t.tree = (removeFrom px py false (sub px py t).tree).bind fun c => .ok (repT px py c t) := by
  induction t with
  | nil => cases h
  | node a x y d ok kids ih =>
    by_cases hm : x = px ∧ y = py
    · simp only [sub, repT, if_pos hm, obind_id]
    · simp only [sub, repT, if_neg hm]
      show removeFrom px py false (mk x y d ok fun q => (kids q).tree) = _
      rw [removeFrom_mk, if_neg hm, ih _ (look_child hm h), obind_assoc]
      rfl

theorem removeFrom_top {px py : Int} {top : Bool} {a : Nat} {x y : Int} {d : V} {ok : Bool} {kids : Quadrant → AT V} {w : Nat} (hm : ¬ (x = px ∧ y = py))
    (h : look px py (node a x y d ok kids) = some (w, none)) : removeFrom px py top (node a x y d ok kids).tree =
      (removeFrom px py false (sub px py (node a x y d ok kids)).tree).bind fun c => .ok (repT px py c (node a x y d ok kids)) := by
  rw [← removeFrom_sub h]
  show removeFrom px py top (mk x y d ok fun q => (kids q).tree) = removeFrom px py false (mk x y d ok fun q => (kids q).tree)
  rw [removeFrom_mk, removeFrom_mk, if_neg hm, if_neg hm]

/-- The subtree at the point. -/
theorem sub_node {px py : Int} {t : AT V} {w : Nat} (h : look px py t = some (w, none)) :
    ∃ d ok kids, sub px py t = node w px py d ok kids := by
  induction t with
  | nil => cases h
  | node a x y d ok kids ih =>
    by_cases hm : x = px ∧ y = py
    · simp only [look, if_pos hm] at h
      cases h
      obtain ⟨rfl, rfl⟩ := hm
      exact ⟨d, ok, kids, by simp only [sub, and_self, if_true]⟩
    · simp only [sub, if_neg hm]
      exact ih _ (look_child hm h)

/-- Replacing a subtree whose root stays. -/
theorem rep_sh {J : Nat → Prop} {m m' : Mem V} {H : Nat → Nat} {x y : Int} {w : Nat} {u t : AT V} (h : Sh J m t) (hl : look x y t = some (w, none))
    (hd : ∀ b, t.cnt b ≤ 1) (f : Fd m m' (fun b => 0 < (sub x y t).cnt b) (fun b => 0 < (sub x y t).cnt b)) (hrc : RC m' H)
    (hr : ∀ a, t.root = some a → ∃ c, m'.cell a = some c) (hu : u.root = (sub x y t).root) (shu : Sh J m' u) (lku : ∀ p, Lk J m' p u) :
    Sh J m' (rep x y u t) ∧ ∀ p, Lk J m p t → Lk J m' p (rep x y u t) := by
  induction t with
  | nil => cases hl
  | node a x0 y0 d ok kids ih =>
    by_cases hm : x0 = x ∧ y0 = y
    · simp only [rep, if_pos hm]; exact ⟨shu, fun p _ => lku p⟩
    · have hl' := look_child hm hl
      simp only [sub, if_neg hm] at f hu
      have hsub : ∀ b, 0 < (sub x y (kids (getQuadrant x0 y0 x y))).cnt b → 0 < (kids (getQuadrant x0 y0 x y)).cnt b := fun b hb =>
        Nat.lt_of_lt_of_le hb (sub_le x y _ b)
      have hna : ¬ 0 < (sub x y (kids (getQuadrant x0 y0 x y))).cnt a := fun hb => by
        have h1 := hsub a hb; have h2 := cnt_le kids (getQuadrant x0 y0 x y) a; have h3 := hd a
        rw [cnt_node, if_pos rfl] at h3; omega
      obtain ⟨⟨c, hc, hx, hy, hdd, hkid⟩, hk⟩ := h
      obtain ⟨c', hc'⟩ := hr a rfl
      obtain ⟨c0, h0, k0, p0⟩ := f.cell a c' hc'
      rw [hc] at h0; cases h0
      have k1 := k0 hna
      obtain ⟨x1, y1, d1, par1⟩ := p0 hna
      have al : ∀ z b, (kids z).root = some b → ∃ c, m'.cell b = some c := fun z b hb => hrc.kid hc' (q := z) (by rw [k1 z, hkid z]; exact hb)
      obtain ⟨i1, i2⟩ := ih _ (hk _).1 hl' (fun b => by have h1 := cnt_le kids (getQuadrant x0 y0 x y) b; have h2 := hd b; rw [cnt_node] at h2; omega) f (al _) hu
      simp only [rep, if_neg hm]
      refine ⟨⟨⟨c', hc', x1.trans hx, y1.trans hy, d1.trans hdd, fun z => ?_⟩, fun z => ?_⟩, ?_⟩
      · rw [k1 z, hkid z, updQ]
        split
        · next e => rw [e, rep_root hu]
        · rfl
      · by_cases e : z = getQuadrant x0 y0 x y
        · subst e; rw [updQ_same]; exact ⟨i1, i2 _ (hk _).2⟩
        · rw [updQ_ne _ _ e]
          have n1 : ∀ b, 0 < (kids z).cnt b → ¬ 0 < (sub x y (kids (getQuadrant x0 y0 x y))).cnt b := fun b h1 h2 => by
            have h3 := cnt_le2 kids e b; have h4 := hd b; have h5 := hsub b h2; rw [cnt_node] at h4; omega
          exact ⟨(hk z).1.frameD f hrc n1 n1 (al z), (hk z).2.frameD f (fun b hb => n1 b (root_pos hb)) (al z)⟩
      · rintro p ⟨c2, hc2, l1, l2⟩
        rw [hc] at hc2; cases hc2
        exact ⟨c', hc', fun h => by rw [par1]; exact l1 h, fun h => by rw [par1]; exact l2 h⟩

/-- A node other than the root, and the node above it. -/
theorem above {I : Nat → Prop} {m : Mem V} {x y : Int} {w : Nat} {a : Nat} {x0 y0 : Int} {d : V} {ok : Bool} {kids : Quadrant → AT V}
    (h : Sh I m (node a x0 y0 d ok kids)) (hl : look x y (node a x0 y0 d ok kids) = some (w, none)) (hm : ¬ (x0 = x ∧ y0 = y))
    (hd : ∀ b, (node a x0 y0 d ok kids).cnt b ≤ 1) :
    ∃ p pc g, m.cell p = some pc ∧ pc.kid g = some w ∧ (∀ r, r ≠ g → pc.kid r ≠ some w) ∧ p ≠ w ∧ 0 < (node a x0 y0 d ok kids).cnt p ∧ Lk I m (some p) (sub x y (node a x0 y0 d ok kids)) ∧
      ∀ (m' : Mem V) H, Fr m m' (· = p) nowhere → RC m' H → (∃ c, m'.cell a = some c) → (∀ c', m'.cell p = some c' → ∀ r, c'.kid r = if r = g then none else pc.kid r) →
        Sh I m' (rep x y nil (node a x0 y0 d ok kids)) ∧ ∀ p', Lk I m p' (node a x0 y0 d ok kids) → Lk I m' p' (rep x y nil (node a x0 y0 d ok kids)) := by
  suffices ∀ t : AT V, t = node a x0 y0 d ok kids → ∃ p pc g, m.cell p = some pc ∧ pc.kid g = some w ∧ (∀ r, r ≠ g → pc.kid r ≠ some w) ∧ p ≠ w ∧ 0 < t.cnt p ∧ Lk I m (some p) (sub x y t) ∧
      ∀ (m' : Mem V) H, Fr m m' (· = p) nowhere → RC m' H → (∃ c, m'.cell a = some c) → (∀ c', m'.cell p = some c' → ∀ r, c'.kid r = if r = g then none else pc.kid r) →
        Sh I m' (rep x y nil t) ∧ ∀ p', Lk I m p' t → Lk I m' p' (rep x y nil t) from this _ rfl
  intro t
  induction t generalizing a x0 y0 d ok kids with
  | nil => intro e; cases e
  | node a x0 y0 d ok kids ih =>
    intro e
    cases e
    have hl' := look_child hm hl
    obtain ⟨⟨c, hc, hx, hy, hdd, hkid⟩, hk⟩ := h
    simp only [sub, rep, if_neg hm]
    have hwk : 0 < (kids (getQuadrant x0 y0 x y)).cnt w := look_pos hl'
    have hdk : ∀ z b, (kids z).cnt b ≤ 1 := fun z b => by have h1 := cnt_le kids z b; have h2 := hd b; rw [cnt_node] at h2; omega
    have hdj : ∀ z b, z ≠ getQuadrant x0 y0 x y → 0 < (kids z).cnt b → ¬ 0 < (kids (getQuadrant x0 y0 x y)).cnt b := fun z b hz h1 h2 => by
      have h3 := cnt_le2 kids hz b; have h4 := hd b; rw [cnt_node] at h4; omega
    have hna : ∀ z, (kids z).cnt a = 0 := fun z => by have h1 := cnt_le kids z a; have h2 := hd a; rw [cnt_node, if_pos rfl] at h2; omega
    cases hg : kids (getQuadrant x0 y0 x y) with
    | nil => rw [hg] at hl'; cases hl'
    | node a2 x2 y2 d2 ok2 kids2 =>
      by_cases hm2 : x2 = x ∧ y2 = y
      · -- directly below
        have hw : a2 = w := by rw [hg] at hl'; simp only [look, if_pos hm2] at hl'; cases hl'; rfl
        subst hw
        have hrw : (kids (getQuadrant x0 y0 x y)).root = some a2 := by rw [hg]; rfl
        refine ⟨a, c, getQuadrant x0 y0 x y, hc, (hkid _).trans hrw, fun r hr he => ?_, fun e => ?_, root_pos rfl, ?_, ?_⟩
        · rw [hkid r] at he
          exact hdj r a2 hr (root_pos he) hwk
        · subst e; have := hna (getQuadrant x0 y0 x y); omega
        · simp only [sub, if_pos hm2]; rw [← hg]; exact (hk _).2
        · intro m' H f hrc hal hkp
          obtain ⟨c', hc'⟩ := hal
          obtain ⟨c0, h0, x3, y3, d3, _, p3⟩ := f.cell a c' hc'
          rw [hc] at h0; cases h0
          have kp := hkp c' hc'
          simp only [rep, if_pos hm2]
          refine ⟨⟨⟨c', hc', x3.trans hx, y3.trans hy, d3.trans hdd, fun z => ?_⟩, fun z => ?_⟩, ?_⟩
          · rw [kp z, updQ]
            split
            · rfl
            · exact hkid z
          · by_cases e : z = getQuadrant x0 y0 x y
            · subst e; rw [updQ_same]; exact ⟨trivial, trivial⟩
            · rw [updQ_ne _ _ e]
              have al : ∀ b, (kids z).root = some b → ∃ c, m'.cell b = some c := fun b hb => hrc.kid hc' (q := z) (by rw [kp z, if_neg e, hkid z]; exact hb)
              exact ⟨(hk z).1.frame f hrc (fun b hb e => by subst e; have := hna z; omega) (fun _ _ => id) al, (hk z).2.frame f (fun _ _ => id) al⟩
          · rintro p' ⟨c2, hc2, l1, l2⟩
            rw [hc] at hc2; cases hc2
            have p3 := p3 id
            exact ⟨c', hc', fun h => by rw [p3]; exact l1 h, fun h => by rw [p3]; exact l2 h⟩
      · -- further below
        have hk2 := (hk (getQuadrant x0 y0 x y)).1
        have hdk2 := hdk (getQuadrant x0 y0 x y)
        rw [hg] at hk2 hdk2 hl'
        obtain ⟨p, pc, g, q1, q2, q3, q4, q5, q6, q7⟩ := ih (getQuadrant x0 y0 x y) hk2 hl' hm2 hdk2 hg
        rw [hg] at q5 q6 q7
        have hpk : 0 < (kids (getQuadrant x0 y0 x y)).cnt p := by rw [hg]; exact q5
        have hpa : a ≠ p := fun e => by subst e; have := hna (getQuadrant x0 y0 x y); omega
        refine ⟨p, pc, g, q1, q2, q3, q4, by have := cnt_le kids (getQuadrant x0 y0 x y) p; rw [cnt_node]; omega, q6, ?_⟩
        intro m' H f hrc hal hkp
        obtain ⟨c', hc'⟩ := hal
        obtain ⟨c0, h0, x3, y3, d3, k3, p3⟩ := f.cell a c' hc'
        rw [hc] at h0; cases h0
        have k3 := k3 hpa
        have al : ∀ z b, (kids z).root = some b → ∃ c, m'.cell b = some c := fun z b hb => hrc.kid hc' (q := z) (by rw [k3 z, hkid z]; exact hb)
        obtain ⟨i1, i2⟩ := q7 m' H f hrc (al (getQuadrant x0 y0 x y) a2 (by rw [hg]; rfl)) hkp
        refine ⟨⟨⟨c', hc', x3.trans hx, y3.trans hy, d3.trans hdd, fun z => ?_⟩, fun z => ?_⟩, ?_⟩
        · rw [k3 z, hkid z, updQ]
          split
          · next e => rw [e, hg]; simp only [rep, if_neg hm2]; rfl
          · rfl
        · by_cases e : z = getQuadrant x0 y0 x y
          · subst e; rw [updQ_same]; exact ⟨i1, i2 _ (by rw [← hg]; exact (hk _).2)⟩
          · rw [updQ_ne _ _ e]
            exact ⟨(hk z).1.frame f hrc (fun b hb e' => by subst e'; exact hdj z b e hb hpk) (fun _ _ => id) (al z), (hk z).2.frame f (fun _ _ => id) (al z)⟩
        · rintro p' ⟨c2, hc2, l1, l2⟩
          rw [hc] at hc2; cases hc2
          have p3 := p3 id
          exact ⟨c', hc', fun h => by rw [p3]; exact l1 h, fun h => by rw [p3]; exact l2 h⟩

end Mdds.Quad
