import Verif.Elem.Lemmas

/-! # Element blocks: every legal call does what the specification says -/
namespace Mdds.Elem
open Mdds

variable {V : Type}

/-- The state after `swap_values`. -/
def sSwap (s : Spec V) (b1 b2 p1 p2 len : Nat) : Spec V :=
  (s.set b1 (over (s.cells b1) p1 (cut (s.cells b2) p2 len))).set b2
    (over ((s.set b1 (over (s.cells b1) p1 (cut (s.cells b2) p2 len))).cells b2) p2 (cut (s.cells b1) p1 len))

theorem set_blks {s : Spec V} {b : Nat} {y : SBlk V} (hb : s.blks b = some y) (l : List (Cell V)) (i : Nat) :
    (s.set b l).blks i = if i = b then some ⟨y.cls, l⟩ else s.blks i := by
  simp [Spec.set, hb]

theorem spec_ext {s t : Spec V} (hb : ∀ i, s.blks i = t.blks i) (ho : s.objs = t.objs) (h1 : s.nextB = t.nextB)
    (h2 : s.nextO = t.nextO) : s = t := by
  cases s; cases t
  simp only [Spec.mk.injEq]
  exact ⟨funext hb, ho, h1, h2⟩

theorem set_self {s : Spec V} {b : Nat} {y : SBlk V} (hb : s.blks b = some y) {l : List (Cell V)} (hl : l = y.cells) :
    s.set b l = s := by
  refine spec_ext (fun i => ?_) rfl rfl rfl
  rw [set_blks hb, hl]
  split
  · next h => rw [h, hb]
  · rfl

theorem sSwap_zero (s : Spec V) {b1 b2 : Nat} {y1 y2 : SBlk V} (h1 : s.blks b1 = some y1) (h2 : s.blks b2 = some y2)
    (p1 p2 : Nat) : sSwap s b1 b2 p1 p2 0 = s := by
  have e : s.set b1 (over (s.cells b1) p1 (cut (s.cells b2) p2 0)) = s :=
    set_self h1 (by rw [cells_eq h1]; simp [cut, over_nil])
  unfold sSwap
  rw [e]
  exact set_self h2 (by rw [cells_eq h2]; simp [cut, over_nil])

/-- Exchanging two ranges of one list that do not meet: the first pair, then the rest. -/
theorem over_swap_one {l : List α} {p1 p2 n : Nat} {v1 v2 : α} (h1 : p1 + (n + 1) ≤ l.length)
    (h2 : p2 + (n + 1) ≤ l.length) (hd : p1 + (n + 1) ≤ p2 ∨ p2 + (n + 1) ≤ p1) (e1 : l[p1]? = some v1)
    (e2 : l[p2]? = some v2) :
    over (over l p1 (cut l p2 (n + 1))) p2 (cut l p1 (n + 1)) =
      over (over ((l.set p1 v2).set p2 v1) (p1 + 1) (cut ((l.set p1 v2).set p2 v1) (p2 + 1) n)) (p2 + 1)
        (cut ((l.set p1 v2).set p2 v1) (p1 + 1) n) := by
  have hlen : ((l.set p1 v2).set p2 v1).length = l.length := by simp
  have c1 : cut ((l.set p1 v2).set p2 v1) (p2 + 1) n = cut l (p2 + 1) n := by
    apply List.ext_getElem?; intro j
    rw [cut_get, cut_get]
    by_cases hj : j < n
    · rw [if_pos hj, if_pos hj, List.getElem?_set_ne (by omega), List.getElem?_set_ne (by omega)]
    · rw [if_neg hj, if_neg hj]
  have c2 : cut ((l.set p1 v2).set p2 v1) (p1 + 1) n = cut l (p1 + 1) n := by
    apply List.ext_getElem?; intro j
    rw [cut_get, cut_get]
    by_cases hj : j < n
    · rw [if_pos hj, if_pos hj, List.getElem?_set_ne (by omega), List.getElem?_set_ne (by omega)]
    · rw [if_neg hj, if_neg hj]
  have l1 : (cut l (p1 + 1) n).length = n := cut_length (by omega)
  have l2 : (cut l (p2 + 1) n).length = n := cut_length (by omega)
  have m1 : (cut l p1 (n + 1)).length = n + 1 := cut_length h1
  have m2 : (cut l p2 (n + 1)).length = n + 1 := cut_length h2
  rw [c1, c2]
  apply List.ext_getElem?
  intro j
  rw [over_get (by rw [over_length (by omega)]; omega), over_get (by omega),
    over_get (by rw [over_length (by simp; omega), hlen]; omega), over_get (by rw [hlen]; omega), m1, m2, l1, l2]
  by_cases a1 : j = p1
  · subst a1
    have : ((l.set j v2).set p2 v1)[j]? = some v2 := by
      have hj : j < l.length := by omega
      rw [List.getElem?_set_ne (by omega), List.getElem?_set_self hj]
    rw [this, cut_cons e2]
    simp only [Nat.lt_irrefl, if_false, Nat.sub_self, List.getElem?_cons_zero]
    split_ifs <;> first | rfl | (exfalso; omega)
  · by_cases a2 : j = p2
    · subst a2
      have : ((l.set p1 v2).set j v1)[j]? = some v1 := List.getElem?_set_self (by simp; omega)
      rw [this, cut_cons e1]
      simp only [Nat.lt_irrefl, if_false, Nat.sub_self, List.getElem?_cons_zero]
      split_ifs <;> first | rfl | (exfalso; omega)
    · have : ((l.set p1 v2).set p2 v1)[j]? = l[j]? := by
        rw [List.getElem?_set_ne (by omega), List.getElem?_set_ne (by omega)]
      rw [this]
      simp only [cut_get]
      split_ifs <;> first | rfl | (exfalso; omega) | (congr 1; omega)

theorem swapLoop_ok {w : World V} {s : Spec V} (h : Rep w s) {b1 b2 p1 p2 : Nat} {y1 y2 : SBlk V}
    (h1 : s.blks b1 = some y1) (h2 : s.blks b2 = some y2) (n : Nat) (r1 : p1 + n ≤ y1.cells.length)
    (r2 : p2 + n ≤ y2.cells.length) (hd : b1 = b2 → p1 + n ≤ p2 ∨ p2 + n ≤ p1) :
    ∃ w', swapLoop w b1 b2 p1 p2 n = .ok (w', .unit) ∧ Rep w' (sSwap s b1 b2 p1 p2 n) := by
  induction n generalizing w s p1 p2 y1 y2 with
  | zero => exact ⟨w, rfl, by rwa [sSwap_zero s h1 h2]⟩
  | succ n ih =>
    obtain ⟨x1, hx1, q1⟩ := h.get h1
    obtain ⟨x2, hx2, q2⟩ := h.get h2
    have g1 : y1.cells[p1]? = some y1.cells[p1] := List.getElem?_eq_getElem (by omega)
    have g2 : y2.cells[p2]? = some y2.cells[p2] := List.getElem?_eq_getElem (by omega)
    generalize y1.cells[p1] = v1 at g1
    generalize y2.cells[p2] = v2 at g2
    obtain ⟨s1, e1, sh1⟩ := q1.2.setIdx (i := p1) (by omega) v2
    have rep1 := h.set h1 (x := ⟨x1.cls, s1⟩) (l := y1.cells.set p1 v2) ⟨q1.1, sh1⟩
    have hb1 : (s.set b1 (y1.cells.set p1 v2)).blks b1 = some ⟨y1.cls, y1.cells.set p1 v2⟩ := by
      rw [set_blks h1, if_pos rfl]
    by_cases hb : b1 = b2
    · subst hb
      obtain rfl : y1 = y2 := by rw [h1] at h2; exact Option.some.inj h2
      have hd' := hd rfl
      have hw : (w.setBlk b1 ⟨x1.cls, s1⟩).blks b1 = some ⟨x1.cls, s1⟩ := by simp [World.setBlk]
      obtain ⟨s2, e2, sh2⟩ := sh1.setIdx (i := p2) (by simp; omega) v1
      have rep2 := rep1.set hb1 (x := ⟨x1.cls, s2⟩) (l := (y1.cells.set p1 v2).set p2 v1) ⟨q1.1, sh2⟩
      have hb2 : ((s.set b1 (y1.cells.set p1 v2)).set b1 ((y1.cells.set p1 v2).set p2 v1)).blks b1 =
          some ⟨y1.cls, (y1.cells.set p1 v2).set p2 v1⟩ := by rw [set_blks hb1, if_pos rfl]
      obtain ⟨w', ew, rw'⟩ := ih rep2 (p1 := p1 + 1) (p2 := p2 + 1) hb2 hb2 (by simp; omega) (by simp; omega)
        (fun _ => by omega)
      refine ⟨w', ?_, ?_⟩
      · simp only [swapLoop, hx1, q1.2.idx, g1, g2, Outcome.ofOption_some, e1, hw, e2, ew]
      · convert rw' using 1
        have ce := cells_eq h1
        refine spec_ext (fun i => ?_) rfl rfl rfl
        unfold sSwap
        rw [ce, cells_eq hb2]
        have k1 := fun l i => set_blks h1 (l := l) (i := i)
        have k2 := fun l i => set_blks hb2 (l := l) (i := i)
        have k1' : ∀ l, (s.set b1 l).blks b1 = some ⟨y1.cls, l⟩ := fun l => by rw [k1, if_pos rfl]
        have k2' : ∀ l, (((s.set b1 (y1.cells.set p1 v2)).set b1 ((y1.cells.set p1 v2).set p2 v1)).set b1 l).blks b1 =
            some ⟨y1.cls, l⟩ := fun l => by rw [k2, if_pos rfl]
        rw [set_blks (k1' _), set_blks (k2' _), cells_eq (k1' _), cells_eq (k2' _)]
        split
        · simp only [Option.some.injEq, SBlk.mk.injEq, true_and]
          exact over_swap_one r1 r2 hd' g1 g2
        · next hi => rw [k1, if_neg hi, k2, if_neg hi, set_blks hb1, if_neg hi, k1, if_neg hi]
    · have hb' : b2 ≠ b1 := fun e => hb e.symm
      have hw : (w.setBlk b1 ⟨x1.cls, s1⟩).blks b2 = some x2 := by simp [World.setBlk, hb', hx2]
      have hs2 : (s.set b1 (y1.cells.set p1 v2)).blks b2 = some y2 := by rw [set_blks h1, if_neg hb', h2]
      obtain ⟨s2, e2, sh2⟩ := q2.2.setIdx (i := p2) (by omega) v1
      have rep2 := rep1.set hs2 (x := ⟨x2.cls, s2⟩) (l := y2.cells.set p2 v1) ⟨q2.1, sh2⟩
      have t1 : ((s.set b1 (y1.cells.set p1 v2)).set b2 (y2.cells.set p2 v1)).blks b1 =
          some ⟨y1.cls, y1.cells.set p1 v2⟩ := by rw [set_blks hs2, if_neg hb, hb1]
      have t2 : ((s.set b1 (y1.cells.set p1 v2)).set b2 (y2.cells.set p2 v1)).blks b2 =
          some ⟨y2.cls, y2.cells.set p2 v1⟩ := by rw [set_blks hs2, if_pos rfl]
      obtain ⟨w', ew, rw'⟩ := ih rep2 (p1 := p1 + 1) (p2 := p2 + 1) t1 t2 (by simp; omega) (by simp; omega)
        (fun e => absurd e hb)
      refine ⟨w', ?_, ?_⟩
      · simp only [swapLoop, hx1, hx2, q1.2.idx, q2.2.idx, g1, g2, Outcome.ofOption_some, e1, hw, e2, ew]
      · convert rw' using 1
        refine spec_ext (fun i => ?_) rfl rfl rfl
        unfold sSwap
        have u2 : ∀ l, (s.set b1 l).blks b2 = some y2 := fun l => by rw [set_blks h1, if_neg hb', h2]
        have u2' : ∀ l, (((s.set b1 (y1.cells.set p1 v2)).set b2 (y2.cells.set p2 v1)).set b1 l).blks b2 =
            some ⟨y2.cls, y2.cells.set p2 v1⟩ := fun l => by rw [set_blks t1, if_neg hb', t2]
        rw [set_blks (u2 _), set_blks (u2' _), cells_eq (u2 _), cells_eq (u2' _), cells_eq h1, cells_eq h2, cells_eq t1,
          cells_eq t2]
        have d1 : cut (y2.cells.set p2 v1) (p2 + 1) n = cut y2.cells (p2 + 1) n := by
          unfold cut; rw [List.drop_set_of_lt (by omega)]
        have d2 : cut (y1.cells.set p1 v2) (p1 + 1) n = cut y1.cells (p1 + 1) n := by
          unfold cut; rw [List.drop_set_of_lt (by omega)]
        rw [d1, d2, over_set v1 (by rw [cut_length (by omega)]; omega), over_set v2 (by rw [cut_length (by omega)]; omega),
          ← cut_cons g1, ← cut_cons g2]
        split
        · rfl
        · next hi =>
          rw [set_blks h1, set_blks t1]
          split
          · rfl
          · next hj => rw [set_blks hs2, if_neg hi, set_blks h1, if_neg hj]

end Mdds.Elem
