import Verif.FST.InsertLemmas

namespace Mdds.FST
variable {V : Type}

theorem sorted_split {ls : List (Leaf V)} (h : Sorted ls) (k : Int) :
    ∃ A B, ls = A ++ B ∧ (∀ n ∈ A, n.1 < k) ∧ (∀ n ∈ B, k ≤ n.1) := by
  induction ls with
  | nil => exact ⟨[], [], rfl, by simp, by simp⟩
  | cons a t ih =>
    obtain ⟨A, B, rfl, hA, hB⟩ := ih (List.pairwise_cons.1 h).2
    by_cases ha : a.1 < k
    · exact ⟨a :: A, B, rfl, by simp [ha]; simpa using hA, hB⟩
    · refine ⟨[], a :: (A ++ B), rfl, by simp, ?_⟩
      intro n hn
      rcases List.mem_cons.1 hn with rfl | hn
      · omega
      · have := (List.pairwise_cons.1 h).1 n hn; omega

/-- Searching from any index that is not past the split point finds the split point. -/
theorem insPos_eq (A B : List (Leaf V)) (k : Int) (p : Nat) (hp : p ≤ A.length)
    (hA : ∀ n ∈ A, n.1 < k) (hB : ∀ n ∈ B, k ≤ n.1) (hne : B ≠ []) :
    insPos (A ++ B) k p = some A.length := by
  have h : A ++ B = A.take p ++ (A.drop p ++ B) := by rw [← List.append_assoc, List.take_append_drop]
  have hl : (A.take p).length = p := by simp [hp]
  have := insPos_split (A.take p) (A.drop p) B k (fun n hn => hA n (List.mem_of_mem_drop hn)) hB hne
  rw [← h, hl] at this
  rw [this]; simp; omega

theorem insPosRev_eq (A B : List (Leaf V)) (k : Int) (hA : ∀ n ∈ A, n.1 < k)
    (hB : ∀ n ∈ B, k ≤ n.1) (p : Nat) (hp : p < A.length + B.length) (hpA : A.length ≤ p + 1) :
    insPosRev (A ++ B) k p = if A = [] then none else some (A.length - 1) := by
  induction p with
  | zero =>
    unfold insPosRev
    cases A with
    | nil =>
      cases B with
      | nil => simp at hp
      | cons b B => have := hB b (by simp); simp; omega
    | cons a A =>
      have := hA a (by simp)
      simp at hpA; subst hpA
      simp [this]
  | succ p ih =>
    unfold insPosRev
    by_cases hlt : p + 1 < A.length
    · have hpe : A.length = p + 2 := by omega
      have hm : A[p + 1] ∈ A := List.getElem_mem hlt
      have hk := hA _ hm
      have hne : A ≠ [] := by intro h; subst h; simp at hpe
      rw [List.getElem?_append_left hlt, List.getElem?_eq_getElem hlt]
      simp only [hk, if_true, hne, if_false]
      congr 1; omega
    · have hlt2 : p + 1 - A.length < B.length := by omega
      have hm : B[p + 1 - A.length] ∈ B := List.getElem_mem hlt2
      have hk := hB _ hm
      rw [List.getElem?_append_right (by omega), List.getElem?_eq_getElem hlt2]
      have : ¬ (B[p + 1 - A.length].1 < k) := by omega
      simp only [this, if_false]
      exact ih (by omega) (by omega)

/-- Decomposition of a well-formed list at `[s, e)`. -/
structure Split (ls P M R : List (Leaf V)) (s e : Int) : Prop where
  eq : ls = P ++ (M ++ R)
  hP : ∀ n ∈ P, n.1 < s
  hM : ∀ n ∈ M, s ≤ n.1 ∧ n.1 < e
  hR : ∀ n ∈ R, e ≤ n.1
  Rne : R ≠ []
  h0 : P = [] → ∃ v M', M = (s, v) :: M'

theorem WF.mem_last {lo hi : Int} {dv : V} {ls : List (Leaf V)} (w : WF lo hi dv ls) :
    (hi, dv) ∈ ls := List.mem_of_getLast? w.last

theorem WF.exists_cons {lo hi : Int} {dv : V} {ls : List (Leaf V)} (w : WF lo hi dv ls) :
    ∃ v t, ls = (lo, v) :: t := by
  have := w.first
  cases ls with
  | nil => simp at this
  | cons a t => obtain ⟨k, v⟩ := a; simp at this; subst this; exact ⟨v, t, rfl⟩

theorem WF.split {lo hi : Int} {dv : V} {ls : List (Leaf V)} (w : WF lo hi dv ls) {s e : Int}
    (hs : lo ≤ s) (hse : s < e) (he : e ≤ hi) : ∃ P M R, Split ls P M R s e := by
  obtain ⟨P, Q, rfl, hP, hQ⟩ := sorted_split w.sorted s
  have hQs := (List.pairwise_append.1 w.sorted).2.1
  obtain ⟨M, R, rfl, hM, hR⟩ := sorted_split hQs e
  refine ⟨P, M, R, rfl, hP, fun n hn => ⟨hQ n (by simp [hn]), hM n hn⟩, hR, ?_, ?_⟩
  · rintro rfl
    have := w.mem_last
    simp at this
    rcases this with h | h
    · have := hP _ h; simp at this; omega
    · have := hM _ h; simp at this; omega
  · rintro rfl
    obtain ⟨v, t, ht⟩ := w.exists_cons
    simp at ht
    cases M with
    | nil =>
      have hlast := w.mem_last
      simp at ht
      subst ht
      have := hR (lo, v) (by simp)
      simp at this; omega
    | cons m M =>
      simp at ht
      obtain ⟨rfl, -⟩ := ht
      have := hQ (lo, v) (by simp)
      have h1 : lo = s := by simp at this; omega
      subst h1
      exact ⟨v, M, rfl⟩

variable [DecidableEq V]

/-- The new leaf list after inserting `[s,e) ↦ val` into `P ++ (M ++ R)`. -/
def nf (P M R : List (Leaf V)) (s e : Int) (val : V) : List (Leaf V) :=
  nfL P s val ++ nfE ((P ++ M).getLast?.map (·.2)) e val R

omit [DecidableEq V] in
theorem bounds_eq {lo hi : Int} {dv : V} {ls : List (Leaf V)} (w : WF lo hi dv ls) :
    bounds ls = .ok (lo, hi) := by
  obtain ⟨v, t, rfl⟩ := w.exists_cons
  have := w.last
  simp only [bounds, List.head?_cons, this]

theorem Split.insertToPos {ls P M R : List (Leaf V)} {s e : Int} (d : Split ls P M R s e)
    (hse : s < e) (val : V) :
    insertToPos ls P.length s e val =
      .ok ⟨nf P M R s e val, some ((nfL P s val).length - 1), decide (nf P M R s e val ≠ ls)⟩ := by
  rw [d.eq]; exact insertToPos_nf P M R s e val hse d.hM d.hR d.Rne d.hP d.h0

/-- Both scan directions find the same insertion position. -/
theorem insertSegment_nf {lo hi : Int} {dv : V} {ls : List (Leaf V)} (w : WF lo hi dv ls)
    {s e s' e' : Int} (ha : adjustRange lo hi s e = some (s', e')) (hse : s' < e')
    {P M R : List (Leaf V)} (d : Split ls P M R s' e') (val : V) (fwd : Bool) :
    insertSegment ls s e val fwd =
      .ok ⟨nf P M R s' e' val, some ((nfL P s' val).length - 1), decide (nf P M R s' e' val ≠ ls)⟩ := by
  have hMR : M ++ R ≠ [] := by simp [d.Rne]
  have hk : ∀ n ∈ M ++ R, s' ≤ n.1 := by
    intro n hn
    rcases List.mem_append.1 hn with h | h
    · exact (d.hM n h).1
    · have := d.hR n h; omega
  have h1 : insPos ls s' 0 = some P.length := by
    rw [d.eq]; exact insPos_eq P (M ++ R) s' 0 (by omega) d.hP hk hMR
  have hlen : 0 < (M ++ R).length := List.length_pos_iff.2 hMR
  have h2 : insPosRev ls s' (ls.length - 1) = if P = [] then none else some (P.length - 1) := by
    rw [d.eq]; apply insPosRev_eq P (M ++ R) s' d.hP hk
    · rw [List.length_append]; omega
    · rw [List.length_append]; omega
  have h3 : ls.length = P.length + (M ++ R).length := by rw [d.eq, List.length_append]
  unfold insertSegment
  rw [bounds_eq w]
  simp only [ha]
  cases fwd
  · simp only [h2]
    by_cases hP0 : P = []
    · simpa [hP0] using d.insertToPos hse val
    · have : P.length ≠ 0 := by simpa using hP0
      have h4 : P.length - 1 + 1 = P.length := by omega
      have h5 : P.length < ls.length := by omega
      simpa [hP0, h4, h5] using d.insertToPos hse val
  · simpa [h1] using d.insertToPos hse val

theorem insertHint_nf {lo hi : Int} {dv : V} {ls : List (Leaf V)} (w : WF lo hi dv ls)
    {s e s' e' : Int} (ha : adjustRange lo hi s e = some (s', e')) (hse : s' < e')
    {P M R : List (Leaf V)} (d : Split ls P M R s' e') (val : V) (h : Option Nat)
    (hh : ∀ p, h = some p → p < ls.length) :
    insertHint ls h s e val =
      .ok ⟨nf P M R s' e' val, some ((nfL P s' val).length - 1), decide (nf P M R s' e' val ≠ ls)⟩ := by
  unfold insertHint
  cases h with
  | none => exact insertSegment_nf w ha hse d val true
  | some p =>
    have hp := hh p rfl
    simp only [List.getElem?_eq_getElem hp]
    by_cases hlt : s < ls[p].1
    · simp only [hlt, if_true]; exact insertSegment_nf w ha hse d val true
    · simp only [hlt, if_false, bounds_eq w, ha]
      have hs' : s ≤ s' := by
        unfold adjustRange at ha
        split at ha
        · cases ha
        · split at ha
          · cases ha
          · simp at ha; rw [← ha.1]; split <;> omega
      have hpP : p ≤ P.length := by
        by_contra hc
        -- the node at index p would have key > s'
        have hmem : ls[p] ∈ M ++ R := by
          have : ls[p] = (M ++ R)[p - P.length]'(by have := d.eq; rw [this] at hp; rw [List.length_append] at hp; omega) := by
            have he := d.eq
            simp only [he]
            rw [List.getElem_append_right (by omega)]
          rw [this]; exact List.getElem_mem _
        have hgt : P.length < ls.length := by omega
        have hlt2 : ls[P.length].1 < ls[p].1 :=
          List.pairwise_iff_getElem.1 w.sorted P.length p hgt hp (by omega)
        have hge : s' ≤ ls[P.length].1 := by
          have hmem2 : ls[P.length] ∈ M ++ R := by
            have : ls[P.length] = (M ++ R)[0]'(by have := d.eq; rw [this] at hgt; rw [List.length_append] at hgt; omega) := by
              have he := d.eq
              simp only [he]
              rw [List.getElem_append_right (by omega)]; simp
            rw [this]; exact List.getElem_mem _
          rcases List.mem_append.1 hmem2 with h | h
          · exact (d.hM _ h).1
          · have := d.hR _ h; omega
        omega
      have hMR : M ++ R ≠ [] := by simp [d.Rne]
      have hk : ∀ n ∈ M ++ R, s' ≤ n.1 := by
        intro n hn
        rcases List.mem_append.1 hn with h | h
        · exact (d.hM n h).1
        · have := d.hR n h; omega
      have h1 : insPos ls s' p = some P.length := by
        rw [d.eq]; exact insPos_eq P (M ++ R) s' p hpP d.hP hk hMR
      simp only [h1]
      exact d.insertToPos hse val

end Mdds.FST
