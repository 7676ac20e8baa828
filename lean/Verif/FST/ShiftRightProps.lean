import Verif.FST.QueryLemmas

namespace Mdds.FST
variable {V : Type}

/-- The kept nodes are a shifted prefix, and everything dropped would have ended at or past
`hi`. -/
theorem shiftKeysRight_prefix (B : List (Leaf V)) (hi d : Int) :
    ∃ B1 B2, B = B1 ++ B2 ∧ shiftKeysRight B hi d = B1.map (fun n => (n.1 + d, n.2)) ∧
      (∀ n ∈ B1, n.1 + d < hi) ∧ (∀ b ∈ B2.head?, hi ≤ b.1 + d) := by
  induction B with
  | nil => exact ⟨[], [], rfl, rfl, by simp, by simp⟩
  | cons b B ih =>
    unfold shiftKeysRight
    by_cases h : b.1 + d < hi
    · obtain ⟨B1, B2, h1, h2, h3, h4⟩ := ih
      refine ⟨b :: B1, B2, by simp [h1], by simp [h, h2], ?_, h4⟩
      intro n hn
      rcases List.mem_cons.1 hn with rfl | hn
      · exact h
      · exact h3 n hn
    · exact ⟨[], b :: B, rfl, by simp [h], by simp, by simp; omega⟩

theorem lastLE_map_add (Y : List (Leaf V)) (dl k : Int) :
    lastLE (Y.map (fun n => (n.1 + dl, n.2))) k = lastLE Y (k - dl) := by
  induction Y with
  | nil => rfl
  | cons a Y ih =>
    rw [List.map_cons, lastLE_cons, lastLE_cons, ih]
    congr 1
    simp only
    split <;> split <;> first | rfl | omega

theorem lastLE_shiftKeysRight {B : List (Leaf V)} (hs : Sorted B) {hi d k : Int} (hk : k < hi) :
    lastLE (shiftKeysRight B hi d) k = lastLE B (k - d) := by
  obtain ⟨B1, B2, h1, h2, h3, h4⟩ := shiftKeysRight_prefix B hi d
  rw [h2, lastLE_map_add, h1, lastLE_append, lastLE_none_of_gt (ls := B2)]
  · simp
  · cases B2 with
    | nil => simp
    | cons b B2 =>
      have hb := h4 b (by simp)
      rw [h1] at hs
      have hs2 := (List.pairwise_append.1 hs).2.1
      intro n hn
      rcases List.mem_cons.1 hn with rfl | hn
      · omega
      · have := (List.pairwise_cons.1 hs2).1 n hn; omega

theorem shiftKeysRight_sorted {B : List (Leaf V)} (hs : Sorted B) (hi d : Int) :
    Sorted (shiftKeysRight B hi d) := by
  obtain ⟨B1, B2, h1, h2, -, -⟩ := shiftKeysRight_prefix B hi d
  rw [h2, Sorted, List.pairwise_map]
  rw [h1] at hs
  exact (List.pairwise_append.1 hs).1.imp (fun h => by simp only; omega)

theorem shiftKeysRight_mem {B : List (Leaf V)} {hi d : Int} :
    ∀ n ∈ shiftKeysRight B hi d, n.1 < hi ∧ ∃ m ∈ B, n.1 = m.1 + d := by
  obtain ⟨B1, B2, h1, h2, h3, -⟩ := shiftKeysRight_prefix B hi d
  intro n hn
  rw [h2] at hn
  obtain ⟨m, hm, rfl⟩ := List.mem_map.1 hn
  exact ⟨h3 m hm, m, by rw [h1]; simp [hm], rfl⟩

theorem shiftKeysRight_eq_nil {B : List (Leaf V)} {hi d : Int} (h : ∀ n ∈ B, hi ≤ n.1 + d) :
    shiftKeysRight B hi d = [] := by
  cases B with
  | nil => rfl
  | cons b B =>
    unfold shiftKeysRight
    rw [if_neg]; have := h b (by simp); omega

/-- The shifted list: keep `A`, shift `B`, keep the right leaf. -/
def srN (A B : List (Leaf V)) (hi d : Int) (dv : V) : List (Leaf V) :=
  A ++ (shiftKeysRight B hi d ++ [(hi, dv)])

theorem srN_wf {A B : List (Leaf V)} {lo hi d p : Int} {dv : V} (hlt : lo < hi) (hd : 0 < d)
    (hA : Sorted A) (hB : Sorted B) (hf : A.head?.map (·.1) = some lo) (hAp : ∀ n ∈ A, n.1 ≤ p)
    (hBp : ∀ n ∈ B, p ≤ n.1) (hp : p < hi) : WF lo hi dv (srN A B hi d dv) := by
  refine ⟨hlt, ?_, ?_, by simp [srN]⟩
  · unfold srN
    rw [List.pairwise_append]
    refine ⟨hA, ?_, ?_⟩
    · rw [List.pairwise_append]
      refine ⟨shiftKeysRight_sorted hB hi d, by simp, ?_⟩
      intro a ha b hb
      simp at hb; subst hb; exact (shiftKeysRight_mem a ha).1
    · intro a ha b hb
      have := hAp a ha
      rcases List.mem_append.1 hb with h | h
      · obtain ⟨-, m, hm, he⟩ := shiftKeysRight_mem b h
        have := hBp m hm; omega
      · simp at h; subst h; simp only; omega
  · unfold srN
    cases A with
    | nil => simp at hf
    | cons a A => simpa using hf

theorem srN_value {A B : List (Leaf V)} {lo hi d p : Int} {dv : V} (w : WF lo hi dv (srN A B hi d dv))
    (hd : 0 < d) (hB : Sorted B) (hAp : ∀ n ∈ A, n.1 ≤ p) (hBp : ∀ n ∈ B, p ≤ n.1) (k : Int) :
    valueAt (srN A B hi d dv) k =
      if hi ≤ k then none
      else if k < p then lastLE A k
      else if k < p + d then A.getLast?.map (·.2)
      else (lastLE B (k - d)).or (A.getLast?.map (·.2)) := by
  rw [valueAt_eq w]
  by_cases hk : k < hi
  · have hr : lastLE [(hi, dv)] k = none :=
      lastLE_none_of_gt (by intro n hn; simp at hn; subst hn; exact hk)
    rw [if_pos hk, if_neg (by omega)]
    unfold srN
    rw [lastLE_append, lastLE_append, hr, lastLE_shiftKeysRight hB hk]
    simp only [Option.none_or]
    by_cases c2 : k < p + d
    · rw [lastLE_none_of_gt (ls := B)]
      · by_cases c1 : k < p
        · simp [c1]
        · rw [if_neg c1, if_pos c2, lastLE_all_le]
          · simp
          · intro n hn; have := hAp n hn; omega
      · intro n hn; have := hBp n hn; omega
    · by_cases c1 : k < p
      · rw [if_pos c1, lastLE_none_of_gt (ls := B)]
        · simp
        · intro n hn; have := hBp n hn; omega
      · rw [if_neg c1, if_neg c2]
        by_cases c3 : p ≤ k
        · rw [lastLE_all_le (ls := A)]
          intro n hn; have := hAp n hn; omega
        · omega
  · rw [if_neg hk, if_pos (by omega)]

theorem srN_canon {A B : List (Leaf V)} {hi d : Int} {dv : V}
    (hc : (A ++ B).IsChain (fun a b => a.2 ≠ b.2)) : Canon (srN A B hi d dv) := by
  obtain ⟨B1, B2, h1, h2, -, -⟩ := shiftKeysRight_prefix B hi d
  unfold Canon srN
  rw [← List.append_assoc, List.dropLast_concat, h2, List.isChain_append]
  rw [h1, ← List.append_assoc] at hc
  have hc' := (List.isChain_append.1 hc).1
  rw [List.isChain_append] at hc'
  refine ⟨hc'.1, ?_, ?_⟩
  · rw [List.isChain_map]; exact hc'.2.1
  · intro x hx y hy
    rw [List.head?_map] at hy
    obtain ⟨y', hy', rfl⟩ : ∃ y', B1.head? = some y' ∧ (y'.1 + d, y'.2) = y := by simpa using hy
    exact hc'.2.2 x hx y' hy'

/-- Which nodes stay and which are shifted. -/
inductive SrCase (ls : List (Leaf V)) (init : V) (lo hi : Int) (dv : V) (p : Int) (skip : Bool) :
    List (Leaf V) → List (Leaf V) → Prop
  | keep (A B) (h : ls = A ++ (B ++ [(hi, dv)])) (hne : A ≠ []) (hA : ∀ n ∈ A, n.1 ≤ p)
      (hB : ∀ n ∈ B, p ≤ n.1)
      (hfill : A.getLast?.map (·.2) = if skip then valueAt ls p else if p = lo then some init else valueAt ls (p - 1)) :
      SrCase ls init lo hi dv p skip A B
  | reset (hp : p = lo) (hsk : skip = false) (v : V) (t : List (Leaf V))
      (h : ls = (lo, v) :: t ++ [(hi, dv)]) (hv : v ≠ init) :
      SrCase ls init lo hi dv p skip [(lo, init)] ((lo, v) :: t)

theorem shiftRightFrom_nf (A B : List (Leaf V)) (hi d : Int) (dv : V) :
    shiftRightFrom (A ++ (B ++ [(hi, dv)])) A.length hi d = srN A B hi d dv := by
  unfold shiftRightFrom srN
  simp

variable [DecidableEq V]

theorem shiftRight_nf {lo hi : Int} {dv : V} {ls : List (Leaf V)} (w : WF lo hi dv ls) {p n : Int}
    (hn : 0 < n) (h1 : lo ≤ p) (h2 : p < hi) (init : V) (skip : Bool) :
    ∃ A B, SrCase ls init lo hi dv p skip A B ∧
      shiftRightLeaves ls init p n skip = .ok (srN A B hi n dv, false) := by
  unfold shiftRightLeaves
  rw [bounds_eq w, if_neg (by omega)]
  simp only
  rw [if_neg (by omega)]
  by_cases hlp : lo = p
  · subst hlp
    rw [if_pos rfl]
    obtain ⟨v, b, t, rfl⟩ := w.two
    obtain ⟨T, hT⟩ : ∃ T, b :: t = T ++ [(hi, dv)] := by
      have h3 := w.eq_snoc
      rw [List.dropLast_cons_of_ne_nil (by simp)] at h3
      simp only [List.cons_append, List.cons.injEq, true_and] at h3
      exact ⟨_, h3⟩
    have hfrom : shiftRightFrom (b :: t) 0 hi n = shiftKeysRight T hi n ++ [(hi, dv)] := by
      have := shiftRightFrom_nf [] T hi n dv
      rw [hT]
      simpa [srN] using this
    have hTlo : ∀ m ∈ T, lo < m.1 := by
      intro m hm
      have := (List.pairwise_cons.1 w.sorted).1 m (by rw [hT]; simp [hm])
      simpa using this
    simp only [hfrom]
    by_cases hc : v ≠ init ∧ skip = false
    · rw [if_pos hc]
      refine ⟨[(lo, init)], (lo, v) :: T, SrCase.reset rfl hc.2 v T (by rw [hT]; simp) hc.1, ?_⟩
      unfold srN
      by_cases hsz : n < hi - lo
      · rw [if_pos hsz]
        have : shiftKeysRight ((lo, v) :: T) hi n = (lo + n, v) :: shiftKeysRight T hi n := by
          rw [shiftKeysRight]; rw [if_pos (by simp only; omega)]
        rw [this]; simp
      · rw [if_neg hsz, shiftKeysRight_eq_nil (B := T), shiftKeysRight_eq_nil (B := (lo, v) :: T)]
        · simp
        · intro m hm
          rcases List.mem_cons.1 hm with rfl | hm
          · simp only; omega
          · have := hTlo m hm; omega
        · intro m hm; have := hTlo m hm; omega
    · rw [if_neg hc]
      refine ⟨[(lo, v)], T, SrCase.keep _ _ (by rw [hT]; simp) (by simp) (by simp) ?_ ?_, by simp [srN]⟩
      · intro m hm; have := hTlo m hm; omega
      · cases skip with
        | false =>
          have : v = init := by by_contra h; exact hc ⟨h, rfl⟩
          simp [this]
        | true =>
          have hb : lo < b.1 := (List.pairwise_cons.1 w.sorted).1 b (by simp)
          simp [valueAt, hb]
  · rw [if_neg hlp]
    obtain ⟨P, Q, e, hP, hQ⟩ := sorted_split w.sorted p
    have hPne : P ≠ [] := by
      rintro rfl
      obtain ⟨v, t, e2⟩ := w.exists_cons
      rw [e2] at e; simp at e
      have := hQ (lo, v) (by rw [← e]; simp); simp at this; omega
    have hQne : Q ≠ [] := by
      rintro rfl
      have := w.mem_last
      rw [e] at this
      have := hP _ (by simpa using this); simp at this; omega
    have hPl : 1 ≤ P.length := List.length_pos_iff.2 hPne
    rw [show insPos ls p 1 = some P.length by rw [e]; exact insPos_eq P Q p 1 hPl hP hQ hQne]
    simp only
    have hQl : Q = Q.dropLast ++ [(hi, dv)] := by
      have h3 := w.last
      rw [e, List.getLast?_append_of_ne_nil _ hQne] at h3
      exact (List.dropLast_append_getLast? (l := Q) (hi, dv) h3).symm
    obtain ⟨Q', hQ'⟩ : ∃ Q', Q = Q' ++ [(hi, dv)] := ⟨_, hQl⟩
    subst hQ'
    have hlast : valueAt ls (p - 1) = P.getLast?.map (·.2) := by
      rw [valueAt_eq w, if_pos (by omega), e, lastLE_append, lastLE_none_of_gt (ls := Q' ++ [(hi, dv)]),
        lastLE_all_le (ls := P)]
      · simp
      · intro m hm; have := hP m hm; omega
      · intro m hm; have := hQ m hm; omega
    have hQ2 : ∀ m ∈ Q', p ≤ m.1 := fun m hm => hQ m (by simp [hm])
    have hP2 : ∀ m ∈ P, m.1 ≤ p := fun m hm => by have := hP m hm; omega
    cases Q' with
    | nil =>
      have hg : ls[P.length]? = some (hi, dv) := by rw [e]; simp
      rw [hg]
      simp only
      rw [if_neg (fun h : skip = true ∧ hi = p => by have := h.2; omega)]
      have hln : P.length < ls.length := by rw [e]; simp
      rw [if_pos hln]
      refine ⟨P, [], SrCase.keep _ _ e hPne hP2 hQ2 ?_, ?_⟩
      · split
        · rw [valueAt_eq w, if_pos h2, e, lastLE_append, lastLE_none_of_gt (ls := [] ++ [(hi, dv)]),
            lastLE_all_le hP2]
          · simp
          · intro m hm; simp at hm; subst hm; exact h2
        · rw [if_neg (by omega), hlast]
      · rw [e]; rw [shiftRightFrom_nf]
    | cons q Q' =>
      have hg : ls[P.length]? = some q := by rw [e]; simp
      rw [hg]
      simp only
      by_cases hsk : skip = true ∧ q.1 = p
      · rw [if_pos hsk]
        have hln : P.length + 1 < ls.length := by rw [e]; simp
        rw [if_pos hln]
        have e3 : ls = (P ++ [q]) ++ (Q' ++ [(hi, dv)]) := by rw [e]; simp
        refine ⟨P ++ [q], Q', SrCase.keep _ _ e3 (by simp) ?_ ?_ ?_, ?_⟩
        · intro m hm
          rcases List.mem_append.1 hm with h | h
          · exact hP2 m h
          · simp at h; subst h; omega
        · intro m hm; exact hQ2 m (by simp [hm])
        · rw [if_pos hsk.1, valueAt_eq w, if_pos h2, e3, lastLE_append,
            lastLE_none_of_gt (ls := Q' ++ [(hi, dv)]), lastLE_all_le (ls := P ++ [q])]
          · simp
          · intro m hm
            rcases List.mem_append.1 hm with h | h
            · exact hP2 m h
            · simp at h; subst h; omega
          · intro m hm
            have hs := w.sorted
            rw [e] at hs
            have := (List.pairwise_cons.1 (List.pairwise_append.1 hs).2.1).1 m hm
            omega
        · have := shiftRightFrom_nf (P ++ [q]) Q' hi n dv
          rw [← e3] at this
          rw [← this]; simp
      · rw [if_neg hsk]
        have hln : P.length < ls.length := by rw [e]; simp
        rw [if_pos hln]
        refine ⟨P, q :: Q', SrCase.keep _ _ e hPne hP2 hQ2 ?_, ?_⟩
        · split
          · rename_i hs1
            have hq : q.1 ≠ p := fun h => hsk ⟨hs1, h⟩
            rw [valueAt_eq w, if_pos h2, e, lastLE_append, lastLE_none_of_gt (ls := q :: Q' ++ [(hi, dv)]),
              lastLE_all_le hP2]
            · simp
            · intro m hm
              have hqp := hQ2 q (by simp)
              rcases List.mem_cons.1 hm with rfl | hm
              · omega
              · have hs := w.sorted
                rw [e] at hs
                have := (List.pairwise_cons.1 (List.pairwise_append.1 hs).2.1).1 m hm
                omega
          · rw [if_neg (by omega), hlast]
        · rw [e, shiftRightFrom_nf]

omit [DecidableEq V] in
theorem SrCase.result {lo hi : Int} {dv : V} {ls : List (Leaf V)} (w : WF lo hi dv ls) {p n : Int}
    (hn : 0 < n) (h2 : p < hi) {init : V} {skip : Bool} {A B : List (Leaf V)}
    (c : SrCase ls init lo hi dv p skip A B) :
    WF lo hi dv (srN A B hi n dv) ∧ (Canon ls → Canon (srN A B hi n dv)) ∧
      ∀ k, valueAt (srN A B hi n dv) k = specShiftRight (valueAt ls) hi
        (if skip then valueAt ls p else if p = lo then some init else valueAt ls (p - 1)) p n k := by
  cases c with
  | keep A B h hne hA hB hfill =>
    have hs := w.sorted
    rw [h] at hs
    obtain ⟨hAs, hBs', -⟩ := List.pairwise_append.1 hs
    have hBs := (List.pairwise_append.1 hBs').1
    have hf : A.head?.map (·.1) = some lo := by
      have := w.first
      rw [h] at this
      cases A with
      | nil => exact absurd rfl hne
      | cons a A => simpa using this
    have w' : WF lo hi dv (srN A B hi n dv) := srN_wf w.lt hn hAs hBs hf hA hB h2
    refine ⟨w', ?_, ?_⟩
    · intro hc
      apply srN_canon
      unfold Canon at hc
      rw [h, ← List.append_assoc, List.dropLast_concat] at hc
      exact hc
    · intro k
      rw [srN_value w' hn hBs hA hB k, ← hfill]
      unfold specShiftRight
      by_cases c0 : hi ≤ k
      · rw [if_pos c0, if_neg (by omega), if_pos c0]
      · rw [if_neg c0]
        by_cases c1 : k < p
        · rw [if_pos c1, if_pos c1, valueAt_eq w, if_pos (by omega), h, lastLE_append,
            lastLE_none_of_gt (ls := B ++ [(hi, dv)])]
          · simp
          · intro m hm
            rcases List.mem_append.1 hm with hm | hm
            · have := hB m hm; omega
            · simp at hm; subst hm; simp only; omega
        · rw [if_neg c1, if_neg c1, if_neg c0]
          by_cases c2 : k < p + n
          · rw [if_pos c2, if_pos c2]
          · rw [if_neg c2, if_neg c2, valueAt_eq w, if_pos (by omega), h, lastLE_append, lastLE_append,
              lastLE_all_le (ls := A), lastLE_none_of_gt (ls := [(hi, dv)])]
            · simp
            · intro m hm; simp at hm; subst hm; simp only; omega
            · intro m hm; have := hA m hm; omega
  | reset hp hsk v t h hv =>
    subst hp
    have hs := w.sorted
    rw [h] at hs
    have hBs : Sorted ((p, v) :: t) := (List.pairwise_append.1 hs).1
    have hBp : ∀ m ∈ (p, v) :: t, p ≤ m.1 := by
      intro m hm; exact w.lo_le m (by rw [h]; exact List.mem_append_left _ hm)
    have w' : WF p hi dv (srN [(p, init)] ((p, v) :: t) hi n dv) :=
      srN_wf w.lt hn (by simp) hBs rfl (by simp) hBp h2
    refine ⟨w', ?_, ?_⟩
    · intro hc
      apply srN_canon
      unfold Canon at hc
      rw [h, List.dropLast_concat] at hc
      rw [List.singleton_append, List.isChain_cons]
      exact ⟨by simpa using fun h => hv h.symm, hc⟩
    · intro k
      rw [srN_value w' hn hBs (by simp) hBp k]
      subst hsk
      unfold specShiftRight
      by_cases c0 : hi ≤ k
      · rw [if_pos c0, if_neg (by omega), if_pos c0]
      · rw [if_neg c0]
        by_cases c1 : k < p
        · rw [if_pos c1, if_pos c1]
          have h5 : lastLE [(p, init)] k = none :=
            lastLE_none_of_gt (by intro m hm; simp at hm; subst hm; exact c1)
          rw [h5, valueAt_eq w, if_pos (by omega), lastLE_none_of_gt]
          intro m hm; have := w.lo_le m hm; omega
        · rw [if_neg c1, if_neg c1, if_neg c0]
          by_cases c2 : k < p + n
          · rw [if_pos c2, if_pos c2]; simp
          · rw [if_neg c2, if_neg c2, valueAt_eq w, if_pos (by omega), h, lastLE_append,
              lastLE_none_of_gt (ls := [(hi, dv)])]
            · simp only [Option.none_or]
              have : ∃ u, lastLE ((p, v) :: t) (k - n) = some u := by
                rw [lastLE_cons, if_pos (by simp only; omega)]; cases lastLE t (k - n) <;> exact ⟨_, rfl⟩
              obtain ⟨u, hu⟩ := this
              rw [hu]; rfl
            · intro m hm; simp at hm; subst hm; simp only; omega

end Mdds.FST
