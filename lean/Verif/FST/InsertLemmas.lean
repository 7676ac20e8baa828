import Verif.FST.Lemmas

namespace Mdds.FST
variable {V : Type}

theorem findIdx?_append_split (A B : List (Leaf V)) (k : Int)
    (hA : ∀ n ∈ A, n.1 < k) (hB : ∀ n ∈ B, k ≤ n.1) (hne : B ≠ []) :
    (A ++ B).findIdx? (fun n => decide (k ≤ n.1)) = some A.length := by
  rw [List.findIdx?_append]
  have h1 : A.findIdx? (fun n => decide (k ≤ n.1)) = none := by
    rw [List.findIdx?_eq_none_iff]; intro x hx; have := hA x hx; simp; omega
  rw [h1]
  cases B with
  | nil => exact absurd rfl hne
  | cons b B =>
    have := hB b (by simp)
    simp [List.findIdx?_cons, this]

theorem insPos_split (A B C : List (Leaf V)) (k : Int)
    (hB : ∀ n ∈ B, n.1 < k) (hC : ∀ n ∈ C, k ≤ n.1) (hne : C ≠ []) :
    insPos (A ++ (B ++ C)) k A.length = some (A.length + B.length) := by
  unfold insPos
  rw [List.drop_left, findIdx?_append_split B C k hB hC hne]; rfl

/-- Start part of the inserted list. -/
def nfL [DecidableEq V] (P : List (Leaf V)) (s : Int) (val : V) : List (Leaf V) :=
  if P.getLast?.map (·.2) = some val then P else P ++ [(s, val)]

/-- End part of the inserted list; `old` is the value in force just before `e`. -/
def nfE [DecidableEq V] (old : Option V) (e : Int) (val : V) : List (Leaf V) → List (Leaf V)
  | [] => []
  | r :: R =>
    if r.1 = e then (if R ≠ [] ∧ r.2 = val then R else r :: R)
    else match old with
      | none => r :: R
      | some o => if o = val then r :: R else (e, o) :: r :: R

variable [DecidableEq V]


omit [DecidableEq V] in
theorem getLast?_append_getD (A B : List (Leaf V)) (d : V) (h : A.getLast?.map (·.2) = some d) :
    (A ++ B).getLast?.map (·.2) = some ((B.getLast?.map (·.2)).getD d) := by
  rw [List.getLast?_append]
  cases hb : B.getLast? <;> simp_all

/-- The end part on a decomposed list. -/
theorem insEnd_nf (A B : List (Leaf V)) (r : Leaf V) (R : List (Leaf V)) (hA : A ≠ []) (old0 : V)
    (ch0 : Bool) (e : Int) (val : V) :
    insEnd (A ++ (B ++ r :: R)) (A.length - 1) old0 (A.length + B.length) ch0 e val =
      .ok ⟨A ++ nfE (some ((B.getLast?.map (·.2)).getD old0)) e val (r :: R), some (A.length - 1),
        ch0 || decide (B ≠ []) ||
          decide (nfE (some ((B.getLast?.map (·.2)).getD old0)) e val (r :: R) ≠ r :: R)⟩ := by
  have hlen : A.length ≠ 0 := by simpa using hA
  have h1 : A.length - 1 + 1 = A.length := by omega
  have h2 : ¬ (A.length + B.length ≤ A.length - 1) := by omega
  have hj : (A ++ (B ++ r :: R))[A.length + B.length]? = some r := by
    rw [List.getElem?_append_right (by omega), List.getElem?_append_right (by omega)]; simp
  have hd : (A ++ (B ++ r :: R)).drop (A.length + B.length) = r :: R := by
    rw [← List.append_assoc]; exact List.drop_left' (by simp)
  have hd1 : (A ++ (B ++ r :: R)).drop (A.length + B.length + 1) = R := by
    rw [← List.drop_drop, hd]; rfl
  have hl : (A.length + B.length + 1 < (A ++ (B ++ r :: R)).length) ↔ R ≠ [] := by
    simp only [List.length_append, List.length_cons]
    rw [← List.length_pos_iff]; omega
  have hne : R ≠ r :: R := by intro h; have := congrArg List.length h; simp at this
  unfold insEnd
  simp only [h1, h2, if_false, List.drop_left, Nat.add_sub_cancel_left, List.take_left, hj, hd, hd1, hl]
  unfold nfE
  by_cases c1 : r.1 = e
  · simp only [c1, if_true]
    by_cases c2 : R ≠ [] ∧ r.2 = val
    · simp [c2]
    · simp [c2]
  · simp only [c1, if_false]
    by_cases c3 : (B.getLast?.map (·.2)).getD old0 = val
    · simp [c3]
    · simp [c3]

theorem insStart_nf (P M : List (Leaf V)) (r : Leaf V) (R : List (Leaf V)) (s e : Int) (val : V)
    (hM : ∀ n ∈ M, s ≤ n.1 ∧ n.1 < e) (hse : s < e) (hr : e ≤ r.1)
    (h0 : P = [] → ∃ v M', M = (s, v) :: M') :
    ∃ A B old0 ch0, insStart (P ++ (M ++ r :: R)) P.length (P.length + M.length) s val =
        .ok (A ++ (B ++ r :: R), A.length - 1, old0, A.length + B.length, ch0) ∧
      A = nfL P s val ∧ A ≠ [] ∧
      (P ++ M).getLast?.map (·.2) = some ((B.getLast?.map (·.2)).getD old0) ∧
      ((ch0 || decide (B ≠ [])) = decide (A ≠ P ++ M)) := by
  rcases List.eq_nil_or_concat P with rfl | ⟨P0, p, rfl⟩
  · obtain ⟨v, M', rfl⟩ := h0 rfl
    refine ⟨[(s, val)], M', v, decide (v ≠ val), ?_, by simp [nfL], by simp, ?_, ?_⟩
    · simp [insStart]; omega
    · simpa using getLast?_append_getD [(s, v)] M' v (by simp)
    · by_cases h : v = val
      · simp [h]
      · simp [h, Ne.symm h, eq_comm]
  · have hget : ∀ X : List (Leaf V), (P0 ++ [p] ++ X)[(P0 ++ [p]).length - 1]? = some p := by
      intro X; simp
    have hi0 : (P0 ++ [p]).length ≠ 0 := by simp
    cases M with
    | nil =>
      have hget0 : (P0 ++ [p] ++ ([] ++ r :: R))[(P0 ++ [p]).length]? = some r := by simp
      have hrs : r.1 ≠ s := by omega
      by_cases hv : p.2 = val
      · refine ⟨P0 ++ [p], [], p.2, false, ?_, by simp [nfL, hv], by simp, by simp, by simp⟩
        simp only [insStart, List.concat_eq_append, hget0, hrs, if_false, hi0, hget, hv, if_true]
      · refine ⟨P0 ++ [p] ++ [(s, val)], [], p.2, true, ?_, by simp [nfL, hv], by simp, by simp, by simp⟩
        simp only [insStart, List.concat_eq_append, hget0, hrs, if_false, hi0, hget, hv, List.take_left,
          List.drop_left]
        simp
    | cons m M =>
      have hget0 : (P0 ++ [p] ++ (m :: M ++ r :: R))[(P0 ++ [p]).length]? = some m := by simp
      by_cases hv : p.2 = val
      · refine ⟨P0 ++ [p], m :: M, if m.1 = s then m.2 else p.2, false, ?_, by simp [nfL, hv], by simp, ?_, by simp⟩
        · by_cases hms : m.1 = s
          · simp only [insStart, List.concat_eq_append, hget0, hms, if_true, hi0, if_false, hget, hv]
          · simp only [insStart, List.concat_eq_append, hget0, hms, if_false, hi0, hget, hv, if_true]
        · rw [List.getLast?_append]
          obtain ⟨x, hx⟩ : ∃ x, (m :: M).getLast? = some x := ⟨_, List.getLast?_eq_some_getLast (by simp)⟩
          rw [hx]; rfl
      · by_cases hms : m.1 = s
        · refine ⟨P0 ++ [p] ++ [(s, val)], M, m.2, decide (m.2 ≠ val), ?_, by simp [nfL, hv], by simp, ?_, ?_⟩
          · simp only [insStart, List.concat_eq_append, hget0, hms, if_true, hi0, if_false, hget, hv]
            simp; omega
          · simpa using getLast?_append_getD (P0 ++ [p] ++ [m]) M m.2 (by simp)
          · obtain ⟨mk, mv⟩ := m
            simp only at hms; subst hms
            by_cases h : mv = val
            · subst h; cases M <;> simp
            · simp [h, Ne.symm h, eq_comm]
        · refine ⟨P0 ++ [p] ++ [(s, val)], m :: M, p.2, true, ?_, by simp [nfL, hv], by simp, ?_, ?_⟩
          · simp only [insStart, List.concat_eq_append, hget0, hms, if_false, hi0, hget, hv, List.take_left,
              List.drop_left]
            simp; omega
          · simpa using getLast?_append_getD (P0 ++ [p]) (m :: M) p.2 (by simp)
          · obtain ⟨mk, mv⟩ := m
            simp only at hms
            simp [Ne.symm hms]

/-- Normal form of `insert_to_pos` on a decomposed sorted list; `changed` says exactly
whether the list differs from the old one. -/
theorem insertToPos_nf (P M R : List (Leaf V)) (s e : Int) (val : V) (hse : s < e)
    (hM : ∀ n ∈ M, s ≤ n.1 ∧ n.1 < e) (hR : ∀ n ∈ R, e ≤ n.1)
    (hRne : R ≠ []) (hP : ∀ n ∈ P, n.1 < s)
    (h0 : P = [] → ∃ v M', M = (s, v) :: M') :
    insertToPos (P ++ (M ++ R)) P.length s e val =
      .ok ⟨nfL P s val ++ nfE ((P ++ M).getLast?.map (·.2)) e val R,
        some ((nfL P s val).length - 1),
        decide (nfL P s val ++ nfE ((P ++ M).getLast?.map (·.2)) e val R ≠ P ++ (M ++ R))⟩ := by
  have hj : insPos (P ++ (M ++ R)) e P.length = some (P.length + M.length) :=
    insPos_split P M R e (fun n hn => (hM n hn).2) hR hRne
  obtain ⟨r, R', rfl⟩ := List.exists_cons_of_ne_nil hRne
  have hr := hR r (by simp)
  obtain ⟨A, B, old0, ch0, h1, hA, hAne, hold, hch⟩ := insStart_nf P M r R' s e val hM hse hr h0
  unfold insertToPos
  simp only [hj, Option.getD_some, h1, insEnd_nf A B r R' hAne]
  rw [← hold, hch, ← hA]
  congr 2
  set E := nfE (Option.map (fun x => x.2) (P ++ M).getLast?) e val (r :: R') with hE
  -- keys of E are >= e, keys of A and P ++ M are < e
  have hEk : ∀ n ∈ E, e ≤ n.1 := by
    intro n hn
    rw [hE] at hn
    unfold nfE at hn
    split at hn
    · cases hn
    · rename_i heq
      obtain ⟨rfl, rfl⟩ := List.cons.inj heq
      split at hn
      · split at hn
        · exact hR n (by simp [hn])
        · exact hR n hn
      · split at hn
        · exact hR n hn
        · split at hn
          · exact hR n hn
          · rcases List.mem_cons.1 hn with h | h
            · subst h; exact Int.le_refl _
            · exact hR n h
  have hAk : ∀ n ∈ A, n.1 < e := by
    intro n hn; rw [hA] at hn; unfold nfL at hn
    split at hn
    · have := hP n hn; omega
    · rcases List.mem_append.1 hn with h | h
      · have := hP n h; omega
      · simp at h; subst h; exact hse
  have hPMk : ∀ n ∈ P ++ M, n.1 < e := by
    intro n hn
    rcases List.mem_append.1 hn with h | h
    · have := hP n h; omega
    · exact (hM n h).2
  have key : A ++ E = P ++ (M ++ r :: R') ↔ A = P ++ M ∧ E = r :: R' := by
    constructor
    · intro h
      have hf := congrArg (List.filter (fun n : Leaf V => decide (n.1 < e))) h
      have hA' : (A ++ E).filter (fun n : Leaf V => decide (n.1 < e)) = A := by
        rw [List.filter_append, List.filter_eq_self.2 (by simpa using hAk),
          List.filter_eq_nil_iff.2 (by intro n hn; have := hEk n hn; simp; omega), List.append_nil]
      have hB' : (P ++ (M ++ r :: R')).filter (fun n : Leaf V => decide (n.1 < e)) = P ++ M := by
        rw [← List.append_assoc, List.filter_append, List.filter_eq_self.2 (by simpa using hPMk),
          List.filter_eq_nil_iff.2 (by intro n hn; have := hR n hn; simp; omega), List.append_nil]
      rw [hA', hB'] at hf
      refine ⟨hf, ?_⟩
      rw [hf, ← List.append_assoc] at h
      exact List.append_cancel_left h
    · rintro ⟨h1, h2⟩; rw [h1, h2, List.append_assoc]
  rw [← Bool.decide_or, decide_eq_decide, ne_eq, ne_eq, ne_eq, key, not_and_or]

end Mdds.FST
