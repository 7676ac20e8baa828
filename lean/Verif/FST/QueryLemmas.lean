import Verif.FST.InsertProps

namespace Mdds.FST
variable {V : Type}

theorem valueAt_none_of_lt {ls : List (Leaf V)} (hs : Sorted ls) {k : Int}
    (h : ∀ n ∈ ls, k < n.1) : valueAt ls k = none := by
  induction ls with
  | nil => rfl
  | cons a t ih =>
    cases t with
    | nil => rfl
    | cons b t =>
      have h1 := h a (by simp)
      unfold valueAt
      rw [if_neg (by omega)]
      exact ih (List.pairwise_cons.1 hs).2 (fun n hn => h n (List.mem_cons_of_mem _ hn))

/-- The value on the segment that starts at node `i`. -/
theorem valueAt_of_seg {ls : List (Leaf V)} (hs : Sorted ls) {i : Nat} {a b : Leaf V} {k : Int}
    (ha : ls[i]? = some a) (hb : ls[i + 1]? = some b) (h1 : a.1 ≤ k) (h2 : k < b.1) :
    valueAt ls k = some a.2 := by
  induction ls generalizing i with
  | nil => simp at ha
  | cons x t ih =>
    cases t with
    | nil => simp at hb
    | cons y t =>
      unfold valueAt
      cases i with
      | zero => simp at ha hb; subst ha; subst hb; simp [h1, h2]
      | succ i =>
        have hx : ¬ (x.1 ≤ k ∧ k < y.1) := by
          intro h
          have hm : a ∈ y :: t := List.mem_of_getElem? (by simpa using ha)
          have hy : y.1 ≤ a.1 := by
            rcases List.mem_cons.1 hm with rfl | hm
            · exact Int.le_refl _
            · have := (List.pairwise_cons.1 (List.pairwise_cons.1 hs).2).1 a hm; omega
          omega
        rw [if_neg hx]
        exact ih (List.pairwise_cons.1 hs).2 (by simpa using ha) (by simpa using hb)

theorem WF.le_hi {lo hi : Int} {dv : V} {ls : List (Leaf V)} (w : WF lo hi dv ls) :
    ∀ n ∈ ls, n.1 ≤ hi := by
  have h := w.last
  have hne : ls ≠ [] := by rintro rfl; simp at h
  have he : ls = ls.dropLast ++ [(hi, dv)] := by
    have := List.dropLast_append_getLast? (l := ls) (hi, dv) h
    exact this.symm
  have hs := w.sorted
  rw [he] at hs ⊢
  intro n hn
  rcases List.mem_append.1 hn with h | h
  · have := (List.pairwise_append.1 hs).2.2 n h (hi, dv) (by simp); simp at this; omega
  · simp at h; subst h; simp

theorem WF.lo_le {lo hi : Int} {dv : V} {ls : List (Leaf V)} (w : WF lo hi dv ls) :
    ∀ n ∈ ls, lo ≤ n.1 := by
  obtain ⟨v, t, rfl⟩ := w.exists_cons
  intro n hn
  rcases List.mem_cons.1 hn with rfl | hn
  · simp
  · have := (List.pairwise_cons.1 w.sorted).1 n hn; simp at this; omega

theorem WF.lt_hi {lo hi : Int} {dv : V} {ls : List (Leaf V)} (w : WF lo hi dv ls) :
    ∀ n ∈ ls.dropLast, n.1 < hi := by
  have h := w.last
  have he : ls = ls.dropLast ++ [(hi, dv)] := (List.dropLast_append_getLast? (l := ls) (hi, dv) h).symm
  have hs := w.sorted
  rw [he] at hs
  intro n hn
  exact (List.pairwise_append.1 hs).2.2 n hn (hi, dv) (by simp)

theorem WF.eq_snoc {lo hi : Int} {dv : V} {ls : List (Leaf V)} (w : WF lo hi dv ls) :
    ls = ls.dropLast ++ [(hi, dv)] := (List.dropLast_append_getLast? (l := ls) (hi, dv) w.last).symm

theorem WF.two {lo hi : Int} {dv : V} {ls : List (Leaf V)} (w : WF lo hi dv ls) :
    ∃ v b t, ls = (lo, v) :: b :: t := by
  obtain ⟨v, t, rfl⟩ := w.exists_cons
  cases t with
  | nil =>
    have := w.last; have := w.lt; simp_all
  | cons b t => exact ⟨v, b, t, rfl⟩

/-- The function is defined exactly on `[lo, hi)`. -/
theorem WF.valueAt_isSome {lo hi : Int} {dv : V} {ls : List (Leaf V)} (w : WF lo hi dv ls) (k : Int) :
    (valueAt ls k).isSome = true ↔ lo ≤ k ∧ k < hi := by
  rw [valueAt_eq w]
  by_cases hk : k < hi
  · simp only [hk, if_true, and_true]
    obtain ⟨v, t, rfl⟩ := w.exists_cons
    constructor
    · intro h
      by_contra hc
      rw [lastLE_none_of_gt] at h
      · simp at h
      · intro n hn; have := w.lo_le n hn; omega
    · intro h
      rw [lastLE_cons]; simp only [h, if_true]; cases lastLE t k <;> rfl
  · simp [hk]

theorem Canon.tail {a b : Leaf V} {t : List (Leaf V)} (h : Canon (a :: b :: t)) : Canon (b :: t) := by
  unfold Canon at h ⊢
  rw [List.dropLast_cons_of_ne_nil (by simp), List.isChain_cons] at h
  exact h.2

/-- Canonical lists with the same function are equal. -/
theorem canon_unique {lo hi : Int} {dv : V} {l1 l2 : List (Leaf V)} (w1 : WF lo hi dv l1)
    (w2 : WF lo hi dv l2) (c1 : Canon l1) (c2 : Canon l2)
    (h : ∀ k, lo ≤ k → k < hi → valueAt l1 k = valueAt l2 k) : l1 = l2 := by
  induction l1 generalizing lo l2 with
  | nil => have := w1.first; simp at this
  | cons x t1 ih =>
    obtain ⟨v1, b1, t1', e1⟩ := w1.two
    obtain ⟨v2, b2, t2', rfl⟩ := w2.two
    obtain ⟨rfl, rfl⟩ : x = (lo, v1) ∧ t1 = b1 :: t1' := by simpa using e1
    have hb1 : lo < b1.1 := (List.pairwise_cons.1 w1.sorted).1 b1 (by simp)
    have hb2 : lo < b2.1 := (List.pairwise_cons.1 w2.sorted).1 b2 (by simp)
    have hb1' : b1.1 ≤ hi := w1.le_hi b1 (by simp)
    have hb2' : b2.1 ≤ hi := w2.le_hi b2 (by simp)
    have hv : v1 = v2 := by
      have := h lo (Int.le_refl _) w1.lt
      unfold valueAt at this
      simpa [hb1, hb2] using this
    subst hv
    -- a next boundary strictly inside changes the value
    have key : ∀ (b b' : Leaf V) (t t' : List (Leaf V)), WF lo hi dv ((lo, v1) :: b :: t) →
        WF lo hi dv ((lo, v1) :: b' :: t') → Canon ((lo, v1) :: b :: t) →
        (∀ k, lo ≤ k → k < hi → valueAt ((lo, v1) :: b :: t) k = valueAt ((lo, v1) :: b' :: t') k) →
        ¬ b.1 < b'.1 := by
      intro b b' t t' w w' c h hlt
      have hlo : lo < b.1 := (List.pairwise_cons.1 w.sorted).1 b (by simp)
      have hhi : b'.1 ≤ hi := w'.le_hi b' (by simp)
      have hk := h b.1 (by omega) (by omega)
      have r : valueAt ((lo, v1) :: b' :: t') b.1 = some v1 := by
        unfold valueAt; rw [if_pos ⟨by simp; omega, hlt⟩]
      cases t with
      | nil =>
        have := w.last
        simp at this; subst this
        simp at hlt; omega
      | cons d t =>
        have hbd : b.1 < d.1 := (List.pairwise_cons.1 (List.pairwise_cons.1 w.sorted).2).1 d (by simp)
        have l : valueAt ((lo, v1) :: b :: d :: t) b.1 = some b.2 := by
          unfold valueAt; rw [if_neg (by omega)]
          unfold valueAt; rw [if_pos ⟨Int.le_refl _, hbd⟩]
        rw [l, r] at hk
        unfold Canon at c
        rw [List.dropLast_cons_of_ne_nil (by simp), List.dropLast_cons_of_ne_nil (by simp),
          List.isChain_cons] at c
        have := c.1 b (by simp)
        simp at hk; exact this hk.symm
    have hbeq : b1.1 = b2.1 := by
      have k1 := key b1 b2 t1' t2' w1 w2 c1 h
      have k2 := key b2 b1 t2' t1' w2 w1 c2 (fun k a b => (h k a b).symm)
      omega
    congr 1
    have l1 : (b1 :: t1').getLast? = some (hi, dv) := by
      simpa [List.getLast?_cons_cons] using w1.last
    have l2 : (b2 :: t2').getLast? = some (hi, dv) := by
      simpa [List.getLast?_cons_cons] using w2.last
    have s1 := (List.pairwise_cons.1 w1.sorted).2
    have s2 := (List.pairwise_cons.1 w2.sorted).2
    by_cases hlt : b1.1 < hi
    · apply ih (lo := b1.1) ⟨hlt, s1, by simp, l1⟩ ⟨hlt, s2, by simp [hbeq], l2⟩ c1.tail c2.tail
      intro k hk1 hk2
      have := h k (by omega) hk2
      unfold valueAt at this
      rw [if_neg (by omega), if_neg (by omega)] at this
      exact this
    · have single : ∀ (b : Leaf V) (t : List (Leaf V)), Sorted (b :: t) →
          (b :: t).getLast? = some (hi, dv) → ¬ b.1 < hi → b :: t = [(hi, dv)] := by
        intro b t s l hn
        cases t with
        | nil => simp at l; simp [l]
        | cons d t =>
          have hm : (hi, dv) ∈ d :: t := List.mem_of_getLast? (by simpa [List.getLast?_cons_cons] using l)
          have := (List.pairwise_cons.1 s).1 _ hm
          simp at this; omega
      rw [single b1 t1' s1 l1 hlt, single b2 t2' s2 l2 (by omega)]

/-- In-range keys have a unique containing segment. -/
theorem WF.locate {lo hi : Int} {dv : V} {ls : List (Leaf V)} (w : WF lo hi dv ls) {k : Int}
    (h1 : lo ≤ k) (h2 : k < hi) :
    ∃ i a b, ls[i]? = some a ∧ ls[i + 1]? = some b ∧ a.1 ≤ k ∧ k < b.1 := by
  obtain ⟨A, B, e, hA, hB⟩ := sorted_split w.sorted (k + 1)
  have hAne : A ≠ [] := by
    rintro rfl
    obtain ⟨v, t, e2⟩ := w.exists_cons
    rw [e2] at e; simp at e
    have := hB (lo, v) (by rw [← e]; simp)
    simp at this; omega
  have hBne : B ≠ [] := by
    rintro rfl
    have := w.mem_last
    rw [e] at this; simp at this
    have := hA _ this; simp at this; omega
  have hl : A.length ≠ 0 := by simpa using hAne
  refine ⟨A.length - 1, A.getLast hAne, B.head hBne, ?_, ?_, ?_, ?_⟩
  · rw [e, List.getElem?_append_left (by omega), ← List.getLast?_eq_getElem?,
      List.getLast?_eq_some_getLast hAne]
  · rw [e, List.getElem?_append_right (by omega)]
    have : A.length - 1 + 1 - A.length = 0 := by omega
    rw [this, ← List.head?_eq_getElem?, List.head?_eq_some_head hBne]
  · have := hA _ (List.getLast_mem hAne); omega
  · have := hB _ (List.head_mem hBne); omega

theorem sorted_idx_lt {ls : List (Leaf V)} (hs : Sorted ls) {i j : Nat} {a b : Leaf V}
    (ha : ls[i]? = some a) (hb : ls[j]? = some b) (h : i < j) : a.1 < b.1 := by
  obtain ⟨hi, rfl⟩ := List.getElem?_eq_some_iff.1 ha
  obtain ⟨hj, rfl⟩ := List.getElem?_eq_some_iff.1 hb
  exact List.pairwise_iff_getElem.1 hs i j hi hj h

/-- `insPos` on a sorted list, at a located key, from any start not after the segment. -/
theorem insPos_located {ls : List (Leaf V)} (hs : Sorted ls) {i : Nat} {a b : Leaf V} {k : Int}
    (ha : ls[i]? = some a) (hb : ls[i + 1]? = some b) (h1 : a.1 ≤ k) (h2 : k < b.1) {p : Nat}
    (hp : p ≤ i) : insPos ls k p = some (if a.1 = k then i else i + 1) := by
  have hi : i < ls.length := (List.getElem?_eq_some_iff.1 ha).1
  have hj : i + 1 < ls.length := (List.getElem?_eq_some_iff.1 hb).1
  have lower : ∀ (n : Nat) (hn : n ≤ ls.length), (∀ (j : Nat) (c : Leaf V), ls[j]? = some c → j < n → c.1 < k) →
      (∀ (j : Nat) (c : Leaf V), ls[j]? = some c → n ≤ j → k ≤ c.1) → p ≤ n → n < ls.length → insPos ls k p = some n := by
    intro n hn hA hB hpn hnl
    have e : ls = ls.take n ++ ls.drop n := (List.take_append_drop n ls).symm
    have hl : (ls.take n).length = n := by simp; omega
    have := insPos_eq (ls.take n) (ls.drop n) k p (by omega) ?_ ?_ ?_
    · rw [← e, hl] at this; exact this
    · intro c hc
      obtain ⟨j, hj'⟩ := List.getElem?_of_mem hc
      rw [List.getElem?_take] at hj'
      split at hj'
      · exact hA j c hj' (by assumption)
      · cases hj'
    · intro c hc
      obtain ⟨j, hj'⟩ := List.getElem?_of_mem hc
      rw [List.getElem?_drop] at hj'
      exact hB _ c hj' (by omega)
    · simp; omega
  by_cases hk : a.1 = k
  · rw [if_pos hk]
    apply lower i (by omega) _ _ hp hi
    · intro j c hc hlt
      have := sorted_idx_lt hs hc ha hlt; omega
    · intro j c hc hle
      rcases Nat.lt_or_ge i j with h | h
      · have := sorted_idx_lt hs ha hc h; omega
      · have : j = i := by omega
        subst this; rw [ha] at hc; cases hc; omega
  · rw [if_neg hk]
    apply lower (i + 1) (by omega) _ _ (by omega) hj
    · intro j c hc hlt
      rcases Nat.lt_or_ge j i with h | h
      · have := sorted_idx_lt hs hc ha h; omega
      · have : j = i := by omega
        subst this; rw [ha] at hc; cases hc; omega
    · intro j c hc hle
      rcases Nat.lt_or_ge (i + 1) j with h | h
      · have := sorted_idx_lt hs hb hc h; omega
      · have : j = i + 1 := by omega
        subst this; rw [hb] at hc; cases hc; omega

theorem searchImpl_located {ls : List (Leaf V)} (_hs : Sorted ls) {i : Nat} {a b : Leaf V} {k : Int}
    (ha : ls[i]? = some a) (hb : ls[i + 1]? = some b) (h1 : a.1 ≤ k) (h2 : k < b.1) :
    searchImpl ls (if a.1 = k then i else i + 1) k = .ok (some ⟨i, a.2, a.1, b.1⟩) := by
  unfold searchImpl
  by_cases hk : a.1 = k
  · simp [hk, ha, hb]
  · have h3 : a.1 < k := by omega
    have h4 : b.1 ≠ k := by omega
    simp [hk, ha, hb, h3, h4]

end Mdds.FST
