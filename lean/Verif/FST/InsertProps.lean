import Verif.FST.InsertSem

namespace Mdds.FST
variable {V : Type} [DecidableEq V]

theorem nfE_cons (old : Option V) (e : Int) (val : V) (r : Leaf V) (R : List (Leaf V)) :
    nfE old e val (r :: R) =
      if r.1 = e then (if R ≠ [] ∧ r.2 = val then R else r :: R)
      else match old with
        | none => r :: R
        | some o => if o = val then r :: R else (e, o) :: r :: R := rfl

theorem nfL_ne_nil (P : List (Leaf V)) (s : Int) (val : V) : nfL P s val ≠ [] := by
  unfold nfL; split
  · rintro rfl; simp at *
  · simp

theorem nfL_last (P : List (Leaf V)) (s : Int) (val : V) :
    (nfL P s val).getLast?.map (·.2) = some val := by
  unfold nfL; split
  · assumption
  · simp

theorem lastLE_nfL {P : List (Leaf V)} {s : Int} (hP : ∀ n ∈ P, n.1 < s) (val : V) (k : Int) :
    lastLE (nfL P s val) k = if s ≤ k then some val else lastLE P k := by
  by_cases hk : s ≤ k
  · rw [if_pos hk]
    unfold nfL; split
    · rename_i h; rw [lastLE_all_le, h]; intro n hn; have := hP n hn; omega
    · rw [lastLE_append, lastLE_cons]; simp [hk]
  · rw [if_neg hk]
    unfold nfL; split
    · rfl
    · rw [lastLE_append, lastLE_cons]; simp [hk]

theorem nfE_ne_nil {R : List (Leaf V)} (h : R ≠ []) (o : Option V) (e : Int) (val : V) :
    nfE o e val R ≠ [] := by
  cases R with
  | nil => exact absurd rfl h
  | cons r R =>
    rw [nfE_cons]
    split
    · split
      · rename_i h2; exact h2.1
      · simp
    · split
      · simp
      · split <;> simp

theorem nfE_last {R : List (Leaf V)} (o : Option V) (e : Int) (val : V) :
    (nfE o e val R).getLast? = R.getLast? := by
  cases R with
  | nil => rfl
  | cons r R =>
    rw [nfE_cons]
    split
    · split
      · rename_i h2; cases R with
        | nil => simp at h2
        | cons a R => simp
      · simp
    · split
      · simp
      · split <;> simp

theorem lastLE_nfE_lt {R : List (Leaf V)} {e : Int} (hR : ∀ n ∈ R, e ≤ n.1) (o : Option V) (val : V)
    {k : Int} (hk : k < e) : lastLE (nfE o e val R) k = none := by
  apply lastLE_none_of_gt
  cases R with
  | nil => simp [nfE]
  | cons r R =>
    have h1 : ∀ n ∈ r :: R, k < n.1 := by intro n hn; have := hR n hn; omega
    rw [nfE_cons]
    split
    · split
      · intro n hn; exact h1 n (by simp [hn])
      · exact h1
    · split
      · exact h1
      · split
        · exact h1
        · intro n hn
          rcases List.mem_cons.1 hn with rfl | hn
          · exact hk
          · exact h1 n hn

theorem lastLE_nfE_ge {R : List (Leaf V)} {e : Int} (hne : R ≠ [])
    (o : V) (val : V) {k : Int} (hk : e ≤ k) :
    (lastLE (nfE (some o) e val R) k).or (some val) = (lastLE R k).or (some o) := by
  cases R with
  | nil => exact absurd rfl hne
  | cons r R =>
    rw [nfE_cons]
    by_cases c1 : r.1 = e
    · have hr : r.1 ≤ k := by omega
      simp only [c1, if_true]
      split
      · rename_i h2
        rw [lastLE_cons r R, if_pos hr, h2.2]
        cases lastLE R k <;> rfl
      · rw [lastLE_cons r R, if_pos hr]
        cases lastLE R k <;> rfl
    · simp only [c1, if_false]
      by_cases c2 : o = val
      · simp [c2]
      · simp only [c2, if_false]
        rw [lastLE_cons (e, o)]
        simp only [hk, if_true]
        cases lastLE (r :: R) k <;> rfl

omit [DecidableEq V] in
theorem Split.PM_last {ls P M R : List (Leaf V)} {s e : Int} (d : Split ls P M R s e) :
    ∃ o, (P ++ M).getLast?.map (·.2) = some o := by
  have : P ++ M ≠ [] := by
    intro h
    obtain ⟨h1, h2⟩ := List.append_eq_nil_iff.1 h
    obtain ⟨v, M', h3⟩ := d.h0 h1
    rw [h2] at h3; cases h3
  rw [List.getLast?_eq_some_getLast this]; exact ⟨_, rfl⟩

theorem nf_wf {lo hi : Int} {dv : V} {ls P M R : List (Leaf V)} (w : WF lo hi dv ls) {s e : Int}
    (hse : s < e) (d : Split ls P M R s e) (val : V) : WF lo hi dv (nf P M R s e val) := by
  have hsort := w.sorted
  rw [d.eq] at hsort
  obtain ⟨hPs, hMRs, hPMR⟩ := List.pairwise_append.1 hsort
  obtain ⟨hMs, hRs, hMR⟩ := List.pairwise_append.1 hMRs
  obtain ⟨o, ho⟩ := d.PM_last
  have hL : ∀ n ∈ nfL P s val, n.1 ≤ s := by
    unfold nfL; split
    · intro n hn; have := d.hP n hn; omega
    · intro n hn
      rcases List.mem_append.1 hn with h | h
      · have := d.hP n h; omega
      · simp at h; subst h; simp
  have hLs : Sorted (nfL P s val) := by
    unfold nfL; split
    · exact hPs
    · rw [Sorted, List.pairwise_append]
      refine ⟨hPs, by simp, ?_⟩
      intro a ha b hb; simp at hb; subst hb; exact d.hP a ha
  have hE : ∀ n ∈ nfE (some o) e val R, e ≤ n.1 := by
    cases R with
    | nil => simp [nfE]
    | cons r R =>
      rw [nfE_cons]
      split
      · split
        · intro n hn; exact d.hR n (by simp [hn])
        · exact d.hR
      · simp only; split
        · exact d.hR
        · intro n hn
          rcases List.mem_cons.1 hn with rfl | hn
          · simp
          · exact d.hR n hn
  have hEs : Sorted (nfE (some o) e val R) := by
    cases R with
    | nil => simp [nfE, Sorted]
    | cons r R =>
      rw [nfE_cons]
      split
      · split
        · exact (List.pairwise_cons.1 hRs).2
        · exact hRs
      · simp only; split
        · exact hRs
        · rw [Sorted, List.pairwise_cons]
          refine ⟨?_, hRs⟩
          intro n hn
          have h1 := d.hR r (by simp)
          rename_i hre _
          rcases List.mem_cons.1 hn with rfl | hn
          · simp; omega
          · have := (List.pairwise_cons.1 hRs).1 n hn; simp; omega
  refine ⟨w.lt, ?_, ?_, ?_⟩
  · unfold nf; rw [ho, List.pairwise_append]
    refine ⟨hLs, hEs, fun a ha b hb => ?_⟩
    have := hL a ha; have := hE b hb; omega
  · unfold nf
    have hf := w.first
    cases P with
    | nil =>
      obtain ⟨v, M', rfl⟩ := d.h0 rfl
      rw [d.eq] at hf
      simp [nfL] at hf ⊢; exact hf
    | cons p P =>
      rw [d.eq] at hf
      unfold nfL
      split <;> simpa using hf
  · unfold nf
    rw [List.getLast?_append, nfE_last]
    have h1 := w.last
    rw [d.eq, ← List.append_assoc, List.getLast?_append] at h1
    rw [List.getLast?_eq_some_getLast d.Rne] at h1 ⊢
    simpa using h1

theorem nf_value {lo hi : Int} {dv : V} {ls P M R : List (Leaf V)} (w : WF lo hi dv ls) {s e : Int}
    (hs : lo ≤ s) (hse : s < e) (he : e ≤ hi) (d : Split ls P M R s e) (val : V) (k : Int) :
    valueAt (nf P M R s e val) k = specInsert (valueAt ls) lo hi s e val k := by
  have w' := nf_wf w hse d val
  unfold specInsert
  rw [valueAt_eq w', valueAt_eq w]
  obtain ⟨o, ho⟩ := d.PM_last
  by_cases hk : k < hi
  · simp only [hk, if_true, true_and]
    unfold nf
    rw [lastLE_append, lastLE_nfL d.hP]
    by_cases h1 : k < s
    · rw [lastLE_nfE_lt d.hR _ _ (by omega)]
      rw [if_neg (by omega), if_neg (by omega)]
      rw [d.eq, lastLE_append, lastLE_none_of_gt (ls := M ++ R)]
      intro n hn
      rcases List.mem_append.1 hn with h | h
      · have := d.hM n h; omega
      · have := d.hR n h; omega
    · by_cases h2 : k < e
      · rw [lastLE_nfE_lt d.hR _ _ h2, if_pos (by omega), if_pos (by omega)]; rfl
      · rw [if_pos (by omega), if_neg (by omega), ho, lastLE_nfE_ge d.Rne o val (by omega)]
        rw [d.eq, ← List.append_assoc, lastLE_append, lastLE_all_le (ls := P ++ M), ho]
        intro n hn
        rcases List.mem_append.1 hn with h | h
        · have := d.hP n h; omega
        · have := d.hM n h; omega
  · simp [hk]

omit [DecidableEq V] in
theorem canon_split {A B : List (Leaf V)} (hB : B ≠ []) :
    Canon (A ++ B) ↔ A.IsChain (fun a b => a.2 ≠ b.2) ∧ Canon B ∧
      ∀ x ∈ A.getLast?, ∀ y ∈ B.dropLast.head?, x.2 ≠ y.2 := by
  unfold Canon
  rw [List.dropLast_append_of_ne_nil hB, List.isChain_append]

theorem nf_canon {ls P M R : List (Leaf V)} {s e : Int}
    (d : Split ls P M R s e) (hc : Canon ls) (val : V) : Canon (nf P M R s e val) := by
  obtain ⟨o, ho⟩ := d.PM_last
  have hMR : M ++ R ≠ [] := by simp [d.Rne]
  rw [d.eq] at hc
  have hPc := ((canon_split hMR).1 hc).1
  rw [← List.append_assoc] at hc
  obtain ⟨-, hRc, hjoin⟩ := (canon_split d.Rne).1 hc
  have hjo : ∀ y ∈ R.dropLast.head?, o ≠ y.2 := by
    intro y hy
    obtain ⟨x, hx, rfl⟩ : ∃ x, (P ++ M).getLast? = some x ∧ x.2 = o := by
      revert ho; cases (P ++ M).getLast? <;> simp
    exact hjoin x hx y hy
  unfold nf
  rw [ho, canon_split (nfE_ne_nil d.Rne _ _ _)]
  refine ⟨?_, ?_, ?_⟩
  · unfold nfL; split
    · exact hPc
    · rename_i hv
      rw [List.isChain_append]
      refine ⟨hPc, by simp, ?_⟩
      intro x hx y hy
      simp at hy; subst hy
      intro h
      apply hv
      rw [Option.mem_def] at hx; rw [hx]; simp [h]
  · have hRne := d.Rne
    cases R with
    | nil => simp at hRne
    | cons r R =>
      rw [nfE_cons]
      split
      · split
        · rename_i h2
          unfold Canon at hRc ⊢
          rw [List.dropLast_cons_of_ne_nil h2.1, List.isChain_cons] at hRc
          exact hRc.2
        · exact hRc
      · simp only; split
        · exact hRc
        · unfold Canon at hRc ⊢
          rw [List.dropLast_cons_of_ne_nil (by simp), List.isChain_cons]
          exact ⟨hjo, hRc⟩
  · intro x hx y hy
    have hxv : x.2 = val := by
      have := nfL_last P s val
      rw [Option.mem_def] at hx; rw [hx] at this; simpa using this
    rw [hxv]
    have hRne := d.Rne
    cases R with
    | nil => simp at hRne
    | cons r R =>
      rw [nfE_cons] at hy
      split at hy
      · split at hy
        · rename_i h2
          unfold Canon at hRc
          rw [List.dropLast_cons_of_ne_nil h2.1, List.isChain_cons] at hRc
          have := hRc.1 y hy
          rw [h2.2] at this; exact this
        · rename_i h2
          cases R with
          | nil => simp at hy
          | cons r2 R =>
            simp at hy; subst hy
            intro h; exact h2 ⟨by simp, h.symm⟩
      · simp only at hy; split at hy
        · rename_i h; rw [← h]; exact hjo y hy
        · rename_i h
          rw [List.dropLast_cons_of_ne_nil (by simp)] at hy
          simp at hy; subst hy
          exact fun h' => h h'.symm

/-- The node the returned iterator points to: its segment contains `s`. -/
theorem nf_pos {lo hi : Int} {dv : V} {ls P M R : List (Leaf V)} (w : WF lo hi dv ls) {s e : Int}
    (hse : s < e) (d : Split ls P M R s e) (val : V) :
    ∃ k k' v', (nf P M R s e val)[(nfL P s val).length - 1]? = some (k, val) ∧
      (nf P M R s e val)[(nfL P s val).length - 1 + 1]? = some (k', v') ∧ k ≤ s ∧ e ≤ k' := by
  have h0 := nfL_ne_nil P s val
  have hl : (nfL P s val).length ≠ 0 := by simpa using h0
  obtain ⟨o, ho⟩ := d.PM_last
  have h1 : (nf P M R s e val)[(nfL P s val).length - 1]? = (nfL P s val).getLast? := by
    unfold nf; rw [List.getElem?_append_left (by omega), List.getLast?_eq_getElem?]
  have h2 : (nf P M R s e val)[(nfL P s val).length - 1 + 1]? = (nfE (some o) e val R).head? := by
    unfold nf
    rw [List.getElem?_append_right (by omega), ho]
    have : (nfL P s val).length - 1 + 1 - (nfL P s val).length = 0 := by omega
    rw [this, List.head?_eq_getElem?]
  have h3 := nfL_last P s val
  rw [h1, h2]
  obtain ⟨x, hx⟩ : ∃ x, (nfL P s val).getLast? = some x := by
    rw [List.getLast?_eq_some_getLast h0]; exact ⟨_, rfl⟩
  obtain ⟨y, hy⟩ : ∃ y, (nfE (some o) e val R).head? = some y := by
    rw [List.head?_eq_some_head (nfE_ne_nil d.Rne _ _ _)]; exact ⟨_, rfl⟩
  obtain ⟨xk, xv⟩ := x
  obtain ⟨yk, yv⟩ := y
  rw [hx] at h3; simp at h3; subst h3
  refine ⟨xk, yk, yv, hx, hy, ?_, ?_⟩
  · have hm : (xk, xv) ∈ nfL P s xv := List.mem_of_getLast? hx
    unfold nfL at hm; split at hm
    · have := d.hP _ hm; simp at this; omega
    · rcases List.mem_append.1 hm with h | h
      · have := d.hP _ h; simp at this; omega
      · simp at h; omega
  · have hm : (yk, yv) ∈ nfE (some o) e xv R := List.mem_of_mem_head? (by simpa using hy)
    have hRne := d.Rne
    cases R with
    | nil => simp at hRne
    | cons r R =>
      rw [nfE_cons] at hm
      split at hm
      · split at hm
        · exact d.hR _ (List.mem_cons_of_mem _ hm)
        · exact d.hR _ hm
      · simp only at hm; split at hm
        · exact d.hR _ hm
        · rcases List.mem_cons.1 hm with h | h
          · simp at h; omega
          · exact d.hR _ h

end Mdds.FST
