import Verif.RTree.Spec
/-! Geometry lemmas: boxes, enlargement, bounding boxes, intersection. -/
namespace Mdds.RTree

variable {D : Nat} {V : Type}

theorem Pt.get_of (f : Fin D → Int) (i : Fin D) : (Pt.of f).get i = f i := by
  simp [Pt.get, Pt.of]

theorem Pt.ext' {p q : Pt D} (h : ∀ i, p.get i = q.get i) : p = q := by
  apply Subtype.ext
  apply List.ext_getElem (by rw [p.2, q.2])
  intro n h1 h2
  have := h ⟨n, by rw [← p.2]; exact h1⟩
  simpa [Pt.get] using this

theorem Box.ext' {a b : Box D} (h1 : ∀ i, a.s.get i = b.s.get i) (h2 : ∀ i, a.e.get i = b.e.get i) :
    a = b := by
  cases a; cases b
  simp only [Box.mk.injEq]
  exact ⟨Pt.ext' h1, Pt.ext' h2⟩

theorem mem_axes (i : Fin D) : i ∈ axes D := by simp [axes]

theorem enlarge_s (p c : Box D) (i : Fin D) :
    (enlarge p c).s.get i = min (p.s.get i) (c.s.get i) := by
  simp only [enlarge, Pt.get_of]; split <;> omega

theorem enlarge_e (p c : Box D) (i : Fin D) :
    (enlarge p c).e.get i = max (p.e.get i) (c.e.get i) := by
  simp only [enlarge, Pt.get_of]; split <;> omega

theorem foldl_bounding (bs : List (Box D)) : ∀ b, Covers (bs.foldl enlarge b) (b :: bs) ∧
    Attained (bs.foldl enlarge b) (b :: bs) := by
  induction bs with
  | nil => intro b; simp [Covers, Attained]
  | cons c bs ih =>
    intro b
    obtain ⟨h1, h2⟩ := ih (enlarge b c)
    simp only [List.foldl_cons]
    constructor
    · intro x hx i
      simp only [List.mem_cons] at hx
      have h0 := h1 (enlarge b c) (by simp) i
      rw [enlarge_s, enlarge_e] at h0
      rcases hx with rfl | rfl | hx
      · omega
      · omega
      · exact h1 x (by simp [hx]) i
    · intro i
      obtain ⟨⟨x, hx, hxs⟩, ⟨y, hy, hye⟩⟩ := h2 i
      constructor
      · simp only [List.mem_cons] at hx
        rcases hx with rfl | hx
        · rw [enlarge_s] at hxs
          by_cases hm : b.s.get i ≤ c.s.get i
          · exact ⟨b, by simp, by omega⟩
          · exact ⟨c, by simp, by omega⟩
        · exact ⟨x, by simp [hx], hxs⟩
      · simp only [List.mem_cons] at hy
        rcases hy with rfl | hy
        · rw [enlarge_e] at hye
          by_cases hm : b.e.get i ≤ c.e.get i
          · exact ⟨c, by simp, by omega⟩
          · exact ⟨b, by simp, by omega⟩
        · exact ⟨y, by simp [hy], hye⟩

theorem ext_bounding (l : List (Box D)) : Bounding (ext l) l := by
  cases l with
  | nil => exact ⟨by simp [Covers], fun _ => rfl, fun h => absurd rfl h⟩
  | cons b bs =>
    obtain ⟨h1, h2⟩ := foldl_bounding bs b
    exact ⟨h1, fun h => by simp at h, fun _ => h2⟩

theorem ext_fits (τ : Prop) (l : List (Box D)) : Fits τ (ext l) l :=
  ⟨(ext_bounding l).1, fun _ => ext_bounding l⟩

theorem bounding_unique {a b : Box D} {l : List (Box D)} (ha : Bounding a l) (hb : Bounding b l) :
    a = b := by
  by_cases hl : l = []
  · rw [ha.2.1 hl, hb.2.1 hl]
  · have h1 := ha.2.2 hl
    have h2 := hb.2.2 hl
    apply Box.ext'
    · intro i
      obtain ⟨⟨x, hx, e1⟩, _⟩ := h1 i
      obtain ⟨⟨y, hy, e2⟩, _⟩ := h2 i
      have := (hb.1 x hx i).1
      have := (ha.1 y hy i).1
      omega
    · intro i
      obtain ⟨_, ⟨x, hx, e1⟩⟩ := h1 i
      obtain ⟨_, ⟨y, hy, e2⟩⟩ := h2 i
      have := (hb.1 x hx i).2
      have := (ha.1 y hy i).2
      omega

theorem bounding_iff {b : Box D} {l : List (Box D)} : Bounding b l ↔ ext l = b :=
  ⟨fun h => bounding_unique (ext_bounding l) h, fun h => h ▸ ext_bounding l⟩

theorem fits_perm {τ : Prop} {b : Box D} {l l' : List (Box D)} (hp : l.Perm l') (h : Fits τ b l) :
    Fits τ b l' := by
  obtain ⟨h1, h2⟩ := h
  refine ⟨fun x hx => h1 x (hp.mem_iff.2 hx), fun ht => ?_⟩
  obtain ⟨g1, g2, g3⟩ := h2 ht
  refine ⟨fun x hx => g1 x (hp.mem_iff.2 hx), fun e => g2 ?_, fun e i => ?_⟩
  · subst e; exact hp.eq_nil
  · have hne : l ≠ [] := fun e' => e (by subst e'; exact hp.symm.eq_nil)
    obtain ⟨⟨x, hx, e1⟩, ⟨y, hy, e2⟩⟩ := g3 hne i
    exact ⟨⟨x, hp.mem_iff.1 hx, e1⟩, ⟨y, hp.mem_iff.1 hy, e2⟩⟩

theorem bounding_perm {b : Box D} {l l' : List (Box D)} (hp : l.Perm l') (h : Bounding b l) :
    Bounding b l' := (fits_perm (τ := True) hp ⟨h.1, fun _ => h⟩).2 trivial

/-- Enlarging a box to take one more member keeps the fit. -/
theorem fits_push {τ : Prop} {b x : Box D} {l : List (Box D)} (hl : l ≠ []) (h : Fits τ b l) :
    Fits τ (enlarge b x) (l ++ [x]) := by
  obtain ⟨h1, h2⟩ := h
  have hc : Covers (enlarge b x) (l ++ [x]) := by
    intro y hy i
    rw [enlarge_s, enlarge_e]
    simp only [List.mem_append, List.mem_singleton] at hy
    rcases hy with hy | rfl
    · have := h1 y hy i; omega
    · omega
  refine ⟨hc, fun ht => ⟨hc, fun e => by simp at e, fun _ i => ?_⟩⟩
  obtain ⟨⟨y, hy, e1⟩, ⟨z, hz, e2⟩⟩ := (h2 ht).2.2 hl i
  rw [enlarge_s, enlarge_e]
  constructor
  · by_cases hm : b.s.get i ≤ x.s.get i
    · exact ⟨y, by simp [hy], by omega⟩
    · exact ⟨x, by simp, by omega⟩
  · by_cases hm : x.e.get i ≤ b.e.get i
    · exact ⟨z, by simp [hz], by omega⟩
    · exact ⟨x, by simp, by omega⟩

theorem fits_single (τ : Prop) (x : Box D) : Fits τ x [x] := by
  have : Bounding x [x] := ⟨by simp [Covers], fun e => by simp at e, fun _ i => by simp⟩
  exact ⟨this.1, fun _ => this⟩

/-- When one member grows, enlarging the box by the member keeps the fit. -/
theorem fits_grow {τ : Prop} {b old x : Box D} {l r : List (Box D)}
    (h : Fits τ b (l ++ old :: r)) (hx : enlarge old x = x) :
    Fits τ (enlarge b x) (l ++ x :: r) := by
  obtain ⟨h1, h2⟩ := h
  have hs : ∀ i, x.s.get i ≤ old.s.get i ∧ old.e.get i ≤ x.e.get i := by
    intro i
    have e1 := enlarge_s old x i
    have e2 := enlarge_e old x i
    rw [hx] at e1 e2
    omega
  have hc : Covers (enlarge b x) (l ++ x :: r) := by
    intro y hy i
    rw [enlarge_s, enlarge_e]
    simp only [List.mem_append, List.mem_cons] at hy
    rcases hy with hy | rfl | hy
    · have := h1 y (by simp [hy]) i; omega
    · omega
    · have := h1 y (by simp [hy]) i; omega
  refine ⟨hc, fun ht => ⟨hc, fun e => by simp at e, fun _ i => ?_⟩⟩
  obtain ⟨⟨y, hy, e1⟩, ⟨z, hz, e2⟩⟩ := (h2 ht).2.2 (by simp) i
  have hsi := hs i
  rw [enlarge_s, enlarge_e]
  constructor
  · by_cases hm : b.s.get i < x.s.get i
    · refine ⟨y, ?_, by omega⟩
      simp only [List.mem_append, List.mem_cons] at hy ⊢
      rcases hy with hy | rfl | hy
      · exact Or.inl hy
      · omega
      · exact Or.inr (Or.inr hy)
    · exact ⟨x, by simp, by omega⟩
  · by_cases hm : x.e.get i < b.e.get i
    · refine ⟨z, ?_, by omega⟩
      simp only [List.mem_append, List.mem_cons] at hz ⊢
      rcases hz with hz | rfl | hz
      · exact Or.inl hz
      · omega
      · exact Or.inr (Or.inr hz)
    · exact ⟨x, by simp, by omega⟩

theorem enlarge_idem (b x : Box D) : enlarge (enlarge b x) (enlarge b x) = enlarge b x := by
  apply Box.ext' <;> intro i <;> simp only [enlarge_s, enlarge_e] <;> omega

theorem enlarge_absorb (b x : Box D) : enlarge b (enlarge b x) = enlarge b x := by
  apply Box.ext' <;> intro i <;> simp only [enlarge_s, enlarge_e] <;> omega

theorem enlarge_covered {b x : Box D} (h : Covers x [b]) : enlarge b x = x := by
  have := h b (by simp)
  apply Box.ext' <;> intro i <;> have := this i <;> simp only [enlarge_s, enlarge_e] <;> omega

theorem enlarge_self (x : Box D) : enlarge x x = x := enlarge_covered (by simp [Covers])

/-! ### predicates -/

theorem contains_iff (b c : Box D) : b.contains c = true ↔ Covers b [c] := by
  simp only [Box.contains, List.all_eq_true, Bool.not_eq_true', Bool.or_eq_false_iff,
    decide_eq_false_iff_not, Covers, List.mem_singleton, forall_eq]
  constructor
  · intro h i; have := h i (mem_axes i); omega
  · intro h i _; have := h i; omega

theorem containsPt_iff (b : Box D) (p : Pt D) : b.containsPt p = true ↔ Inside p b := by
  simp only [Box.containsPt, List.all_eq_true, Bool.not_eq_true', Bool.or_eq_false_iff,
    decide_eq_false_iff_not, Inside]
  constructor
  · intro h i; have := h i (mem_axes i); omega
  · intro h i _; have := h i; omega

theorem atBoundary_false (b c : Box D) : b.atBoundary c = false ↔
    ∀ i, b.s.get i ≠ c.s.get i ∧ c.e.get i ≠ b.e.get i := by
  simp only [Box.atBoundary, List.any_eq_false, Bool.or_eq_true, decide_eq_true_eq, not_or]
  constructor
  · intro h i; exact h i (mem_axes i)
  · intro h i _; exact h i

theorem intersects_iff (a b : Box D) : intersects a b = true ↔
    ∀ i, if a.s.get i > b.s.get i then a.s.get i ≤ b.e.get i else b.s.get i ≤ a.e.get i := by
  simp only [intersects, List.all_eq_true]
  constructor
  · intro h i
    have := h i (mem_axes i)
    split at this <;> simp at this <;> split <;> omega
  · intro h i _
    have := h i
    split at this <;> simp <;> split <;> first | omega | simp_all

/-- For proper extents the code's test is exactly "share a point". -/
theorem intersects_overlap {a b : Box D} (ha : a.Valid) (hb : b.Valid) :
    intersects a b = true ↔ Overlap a b := by
  rw [intersects_iff]
  constructor
  · intro h
    refine ⟨Pt.of fun i => max (a.s.get i) (b.s.get i), fun i => ?_, fun i => ?_⟩ <;>
    · rw [Pt.get_of]
      have h0 := h i; have := ha i; have := hb i
      split at h0 <;> omega
  · rintro ⟨p, h1, h2⟩ i
    have := h1 i; have := h2 i
    split <;> omega

/-- A box that covers a proper extent meeting `q` meets `q`. -/
theorem intersects_mono {q b c : Box D} (hc : c.Valid) (hcov : Covers b [c])
    (h : intersects q c = true) : intersects q b = true := by
  rw [intersects_iff] at h ⊢
  intro i
  have h0 := h i; have := hc i; have := hcov c (by simp) i
  split at h0 <;> split <;> omega

theorem inside_mono {p : Pt D} {b c : Box D} (hcov : Covers b [c]) (h : Inside p c) : Inside p b := by
  intro i
  have := h i; have := hcov c (by simp) i
  omega

theorem covers_trans {a b c : Box D} (h1 : Covers a [b]) (h2 : Covers b [c]) : Covers a [c] := by
  intro x hx i
  simp only [List.mem_singleton] at hx; subst hx
  have := h1 b (by simp) i; have := h2 x (by simp) i
  omega

theorem covers_mem {a b : Box D} {l : List (Box D)} (h : Covers a l) (hb : b ∈ l) : Covers a [b] := by
  intro x hx i
  simp only [List.mem_singleton] at hx; subst hx
  exact h x hb i

end Mdds.RTree
