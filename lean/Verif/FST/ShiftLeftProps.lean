import Verif.FST.ShiftLeftLemmas

namespace Mdds.FST
variable {V : Type} [DecidableEq V]

omit [DecidableEq V] in
theorem lastLE_map_sub (Y : List (Leaf V)) (dl k : Int) :
    lastLE (Y.map (fun n => (n.1 - dl, n.2))) k = lastLE Y (k + dl) := by
  induction Y with
  | nil => rfl
  | cons a Y ih =>
    rw [List.map_cons, lastLE_cons, lastLE_cons, ih]
    congr 1
    simp only
    split <;> split <;> first | rfl | omega

theorem slJ_mem {P X : List (Leaf V)} {s : Int} : ∀ n ∈ slJ P X s, n.1 = s := by
  intro n hn
  unfold slJ at hn
  split at hn
  · simp at hn
  · split at hn
    · simp at hn
    · simp at hn; rw [hn]

theorem slJ_sorted (P X : List (Leaf V)) (s : Int) : Sorted (slJ P X s) := by
  unfold slJ Sorted
  split
  · simp
  · split <;> simp

theorem slA_facts {lo hi : Int} {dv : V} {ls P X Y : List (Leaf V)} (w : WF lo hi dv ls) {s e : Int}
    (_hse : s < e) (_he : e ≤ hi) (d : ShSplit ls P X Y hi dv s e) :
    Sorted (slA P X Y s e) ∧ (slA P X Y s e).head?.map (·.1) = some lo ∧
      (∀ n ∈ P ++ slJ P X s, n.1 ≤ s) ∧
      (∀ n ∈ Y.map (fun n => (n.1 - (e - s), n.2)), s < n.1 ∧ n.1 < hi - (e - s)) := by
  have hsort := w.sorted
  rw [d.eq] at hsort
  obtain ⟨hPs, h2, -⟩ := List.pairwise_append.1 hsort
  obtain ⟨-, h3, -⟩ := List.pairwise_append.1 h2
  obtain ⟨hYs, -, -⟩ := List.pairwise_append.1 h3
  have hPJ : ∀ n ∈ P ++ slJ P X s, n.1 ≤ s := by
    intro n hn
    rcases List.mem_append.1 hn with h | h
    · have := d.hP n h; omega
    · have := slJ_mem n h; omega
  have hY : ∀ n ∈ Y.map (fun n => (n.1 - (e - s), n.2)), s < n.1 ∧ n.1 < hi - (e - s) := by
    intro n hn
    obtain ⟨m, hm, rfl⟩ := List.mem_map.1 hn
    have := d.hY m hm
    simp only; omega
  refine ⟨?_, ?_, hPJ, hY⟩
  · unfold slA
    rw [Sorted, List.pairwise_append]
    refine ⟨?_, ?_, ?_⟩
    · rw [List.pairwise_append]
      refine ⟨hPs, slJ_sorted P X s, ?_⟩
      intro a ha b hb
      rw [slJ_mem b hb]; exact d.hP a ha
    · rw [List.pairwise_map]
      exact hYs.imp (fun h => by simp only; omega)
    · intro a ha b hb
      have := hPJ a ha; have := hY b hb; omega
  · unfold slA
    have hf := w.first
    cases P with
    | nil =>
      obtain ⟨v, X', rfl⟩ := d.h0 rfl
      rw [d.eq] at hf
      have : lo = s := by simp at hf; exact hf.symm
      subst this
      unfold slJ
      rw [List.getLast?_eq_some_getLast (by simp)]; simp
    | cons p P =>
      rw [d.eq] at hf
      simpa using hf

theorem slN_eq_lastLE {A : List (Leaf V)} {k0 hi : Int} {dv init : V} (hA : A ≠ []) (hs : Sorted A)
    (hle : ∀ n ∈ A, n.1 ≤ k0) {k : Int} (hk : k < hi) :
    lastLE (slN A init k0 (hi, dv)) k = if k0 ≤ k then some init else lastLE A k := by
  obtain ⟨B, p, rfl⟩ : ∃ B p, A = B ++ [p] := ⟨_, _, (List.dropLast_append_getLast hA).symm⟩
  have hp := hle p (by simp)
  have hr : lastLE [(hi, dv)] k = none := lastLE_none_of_gt (by intro n hn; simp at hn; subst hn; exact hk)
  unfold slN
  simp only [List.getLast?_concat, List.dropLast_concat]
  by_cases c1 : p.1 = k0
  · simp only [c1, if_true]
    rw [lastLE_append, lastLE_cons, hr]
    by_cases c2 : k0 ≤ k
    · simp [c2]
    · rw [lastLE_append, lastLE_cons p []]; simp [c1, c2]
  · simp only [c1, if_false]
    by_cases c3 : p.2 = init
    · simp only [c3, if_true]
      rw [lastLE_append, hr]
      by_cases c2 : k0 ≤ k
      · rw [if_pos c2, lastLE_all_le]
        · simp [c3]
        · intro n hn; have := hle n hn; omega
      · simp [c2]
    · simp only [c3, if_false]
      rw [lastLE_append, lastLE_cons, hr]
      by_cases c2 : k0 ≤ k
      · simp [c2]
      · simp [c2]

theorem slN_wf {A : List (Leaf V)} {k0 lo hi : Int} {dv init : V} (hA : A ≠ []) (hs : Sorted A)
    (hf : A.head?.map (·.1) = some lo) (hlt : lo < hi) (hk : k0 < hi)
    (hle : ∀ n ∈ A, n.1 ≤ k0) : WF lo hi dv (slN A init k0 (hi, dv)) := by
  obtain ⟨B, p, rfl⟩ : ∃ B p, A = B ++ [p] := ⟨_, _, (List.dropLast_append_getLast hA).symm⟩
  have hp := hle p (by simp)
  have hB : ∀ n ∈ B, n.1 < p.1 := fun n hn => (List.pairwise_append.1 hs).2.2 n hn p (by simp)
  have hBs := (List.pairwise_append.1 hs).1
  unfold slN
  simp only [List.getLast?_concat, List.dropLast_concat]
  by_cases c1 : p.1 = k0
  · simp only [c1, if_true]
    refine ⟨hlt, ?_, ?_, by simp⟩
    · rw [List.pairwise_append]
      refine ⟨hBs, by simp [hk], ?_⟩
      intro a ha b hb
      have := hB a ha
      simp at hb; rcases hb with rfl | rfl <;> simp <;> omega
    · cases B with
      | nil => simp [← c1]; simpa using hf
      | cons b B => simpa using hf
  · simp only [c1, if_false]
    by_cases c3 : p.2 = init
    · simp only [c3, if_true]
      refine ⟨hlt, ?_, ?_, by simp⟩
      · rw [List.pairwise_append]
        refine ⟨hs, by simp, ?_⟩
        intro a ha b hb
        have := hle a ha
        simp at hb; subst hb; simp; omega
      · cases B <;> simpa using hf
    · simp only [c3, if_false]
      refine ⟨hlt, ?_, ?_, by simp⟩
      · rw [List.pairwise_append]
        refine ⟨hs, by simp [hk], ?_⟩
        intro a ha b hb
        have h1 := hle a ha
        have h2 : a.1 < k0 := by
          rcases List.mem_append.1 ha with h | h
          · have := hB a h; omega
          · simp at h; subst h; omega
        simp at hb; rcases hb with rfl | rfl <;> simp <;> omega
      · cases B <;> simpa using hf

theorem shiftLeft_wf {lo hi : Int} {dv : V} {ls P X Y : List (Leaf V)} (w : WF lo hi dv ls) {s e : Int}
    (hse : s < e) (he : e ≤ hi) (d : ShSplit ls P X Y hi dv s e) (init : V) :
    WF lo hi dv (slN (slA P X Y s e) init (hi - (e - s)) (hi, dv)) := by
  obtain ⟨h1, h2, h3, h4⟩ := slA_facts w hse he d
  apply slN_wf (slA_ne_nil d) h1 h2 w.lt (by omega)
  intro n hn
  rcases List.mem_append.1 hn with h | h
  · have := h3 n h; omega
  · have := h4 n h; omega

theorem lastLE_slA {ls P X Y : List (Leaf V)} {hi : Int} {dv : V} {s e : Int}
    (_hse : s < e) (d : ShSplit ls P X Y hi dv s e) {k : Int} (hk : k < hi - (e - s)) :
    lastLE (slA P X Y s e) k = if k < s then lastLE ls k else lastLE ls (k + (e - s)) := by
  unfold slA
  rw [lastLE_append, lastLE_map_sub, lastLE_append]
  by_cases c1 : k < s
  · rw [if_pos c1]
    rw [lastLE_none_of_gt (ls := Y), lastLE_none_of_gt (ls := slJ P X s), d.eq, lastLE_append,
      lastLE_none_of_gt (ls := X ++ (Y ++ [(hi, dv)]))]
    · simp
    · intro n hn
      simp only [List.mem_append, List.mem_singleton] at hn
      rcases hn with h | h | h
      · have := d.hX n h; omega
      · have := d.hY n h; omega
      · subst h; simp; omega
    · intro n hn; rw [slJ_mem n hn]; exact c1
    · intro n hn; have := d.hY n hn; omega
  · rw [if_neg c1, d.eq, lastLE_append, lastLE_append, lastLE_append]
    have hr : lastLE [(hi, dv)] (k + (e - s)) = none :=
      lastLE_none_of_gt (by intro n hn; simp at hn; subst hn; simp; omega)
    rw [hr]
    simp only [Option.none_or]
    have hX : lastLE X (k + (e - s)) = X.getLast?.map (·.2) :=
      lastLE_all_le (by intro n hn; have := d.hX n hn; omega)
    have hP : lastLE P (k + (e - s)) = P.getLast?.map (·.2) :=
      lastLE_all_le (by intro n hn; have := d.hP n hn; omega)
    have hP' : lastLE P k = P.getLast?.map (·.2) :=
      lastLE_all_le (by intro n hn; have := d.hP n hn; omega)
    rw [hX, hP, hP']
    have hJ : lastLE (slJ P X s) k = (slJ P X s).getLast?.map (·.2) :=
      lastLE_all_le (by intro n hn; rw [slJ_mem n hn]; omega)
    rw [hJ, Option.or_assoc]
    congr 1
    unfold slJ
    cases hXl : X.getLast? with
    | none => simp
    | some x =>
      simp only
      split
      · rename_i h; simp [h]
      · simp

theorem shiftLeft_value {lo hi : Int} {dv : V} {ls P X Y : List (Leaf V)} (w : WF lo hi dv ls) {s e : Int}
    (hse : s < e) (he : e ≤ hi) (d : ShSplit ls P X Y hi dv s e) (init : V) (k : Int) :
    valueAt (slN (slA P X Y s e) init (hi - (e - s)) (hi, dv)) k =
      specShiftLeft (valueAt ls) hi init s e k := by
  have w' := shiftLeft_wf w hse he d init
  obtain ⟨h1, h2, h3, h4⟩ := slA_facts w hse he d
  have hle : ∀ n ∈ slA P X Y s e, n.1 ≤ hi - (e - s) := by
    intro n hn
    rcases List.mem_append.1 hn with h | h
    · have := h3 n h; omega
    · have := h4 n h; omega
  unfold specShiftLeft
  rw [valueAt_eq w', valueAt_eq w, valueAt_eq w]
  by_cases hk : k < hi
  · rw [if_pos hk, slN_eq_lastLE (slA_ne_nil d) h1 hle hk]
    by_cases c1 : hi - (e - s) ≤ k
    · rw [if_pos c1, if_neg (by omega), if_neg (by omega), if_pos hk]
    · rw [if_neg c1, lastLE_slA hse d (by omega)]
      by_cases c2 : k < s
      · simp [c2, hk]
      · simp only [c2, if_false]
        rw [if_pos (by omega), if_pos (by omega)]
  · rw [if_neg hk, if_neg (by omega), if_neg (by omega), if_neg hk]

/-- Canonicity after `shift_left`: lost exactly when the range reaches the end, the value just
before it is the default value and the last value is not. -/
theorem slN_canon_iff {A : List (Leaf V)} {k0 hi : Int} {dv init : V} (hA : A ≠ [])
    (hc : A.IsChain (fun a b => a.2 ≠ b.2)) :
    Canon (slN A init k0 (hi, dv)) ↔
      ¬ (∃ B q p, A = B ++ [q, p] ∧ p.1 = k0 ∧ q.2 = init) := by
  obtain ⟨B, p, rfl⟩ : ∃ B p, A = B ++ [p] := ⟨_, _, (List.dropLast_append_getLast hA).symm⟩
  have hBc := (List.isChain_append.1 hc).1
  unfold slN Canon
  simp only [List.getLast?_concat, List.dropLast_concat]
  by_cases c1 : p.1 = k0
  · simp only [c1, if_true]
    rw [show B ++ [(k0, init), (hi, dv)] = B ++ [(k0, init)] ++ [(hi, dv)] by simp, List.dropLast_concat,
      List.isChain_append]
    constructor
    · rintro ⟨-, -, h⟩ ⟨B', q, p', e, -, hq⟩
      have e' : B = B' ++ [q] ∧ p = p' := by
        rw [show B' ++ [q, p'] = B' ++ [q] ++ [p'] by simp] at e
        simpa using List.append_inj' e rfl
      exact h q (by rw [e'.1]; simp) (k0, init) (by simp) hq
    · intro h
      refine ⟨hBc, by simp, ?_⟩
      intro x hx y hy
      simp at hy; subst hy
      intro hq
      apply h
      refine ⟨B.dropLast, x, p, ?_, c1, hq⟩
      have := List.dropLast_append_getLast? (l := B) x hx
      rw [show B.dropLast ++ [x, p] = B.dropLast ++ [x] ++ [p] by simp, this]
  · have hr : ¬ ∃ B' q p', B ++ [p] = B' ++ [q, p'] ∧ p'.1 = k0 ∧ q.2 = init := by
      rintro ⟨B', q, p', e, h, -⟩
      have e' : B = B' ++ [q] ∧ p = p' := by
        rw [show B' ++ [q, p'] = B' ++ [q] ++ [p'] by simp] at e
        simpa using List.append_inj' e rfl
      rw [e'.2] at c1; exact c1 h
    simp only [c1, if_false, hr, not_false_eq_true, iff_true]
    by_cases c3 : p.2 = init
    · simp only [c3, if_true]; rw [List.dropLast_concat]; exact hc
    · simp only [c3, if_false]
      rw [show B ++ [p] ++ [(k0, init), (hi, dv)] = B ++ [p] ++ [(k0, init)] ++ [(hi, dv)] by simp,
        List.dropLast_concat, List.isChain_append]
      refine ⟨hc, by simp, ?_⟩
      intro x hx y hy
      simp at hx hy; subst hx; subst hy; exact c3

omit [DecidableEq V] in
theorem chain_join {P X Y : List (Leaf V)} (h : (P ++ (X ++ Y)).IsChain (fun a b => a.2 ≠ b.2)) :
    P.IsChain (fun a b => a.2 ≠ b.2) ∧ Y.IsChain (fun a b => a.2 ≠ b.2) ∧
      ∀ x ∈ (X.getLast?.or P.getLast?), ∀ y ∈ Y.head?, x.2 ≠ y.2 := by
  have h' := h
  rw [List.isChain_append] at h
  rw [← List.append_assoc, List.isChain_append, List.getLast?_append] at h'
  exact ⟨h.1, h'.2.1, h'.2.2⟩

theorem slA_chain {ls P X Y : List (Leaf V)} {hi : Int} {dv : V} {s e : Int}
    (d : ShSplit ls P X Y hi dv s e) (hc : Canon ls) :
    (slA P X Y s e).IsChain (fun a b => a.2 ≠ b.2) := by
  unfold Canon at hc
  rw [d.eq, show P ++ (X ++ (Y ++ [(hi, dv)])) = P ++ (X ++ Y) ++ [(hi, dv)] by simp,
    List.dropLast_concat] at hc
  obtain ⟨hP, hY, hj⟩ := chain_join hc
  have hPJ : (P ++ slJ P X s).IsChain (fun a b => a.2 ≠ b.2) := by
    rw [List.isChain_append]
    refine ⟨hP, ?_, ?_⟩
    · unfold slJ; split
      · simp
      · split <;> simp
    · intro x hx y hy
      unfold slJ at hy
      split at hy
      · simp at hy
      · split at hy
        · simp at hy
        · rename_i hne
          simp at hy; subst hy
          intro h; apply hne
          rw [Option.mem_def] at hx; rw [hx]; simp [h]
  unfold slA
  rw [List.isChain_append]
  refine ⟨hPJ, ?_, ?_⟩
  · rw [List.isChain_map]; exact hY
  · intro x hx y hy
    rw [List.head?_map] at hy
    obtain ⟨y', hy', rfl⟩ : ∃ y', Y.head? = some y' ∧ (y'.1 - (e - s), y'.2) = y := by
      simpa using hy
    simp only
    -- the value before Y is that of the last of X, or of P
    have hval : ∃ z, z ∈ (X.getLast?.or P.getLast?) ∧ z.2 = x.2 := by
      rw [List.getLast?_append] at hx
      unfold slJ at hx
      cases hXl : X.getLast? with
      | none => rw [hXl] at hx; exact ⟨x, by simpa using hx, rfl⟩
      | some z =>
        refine ⟨z, by simp, ?_⟩
        rw [hXl] at hx
        simp only at hx
        split at hx
        · rename_i h
          simp at hx; rw [hx] at h; simpa using h.symm
        · simp at hx; rw [← hx]
    obtain ⟨z, hz, hzx⟩ := hval
    have := hj z hz y' hy'
    rwa [hzx] at this

theorem shiftLeft_canon_iff {lo hi : Int} {dv : V} {ls P X Y : List (Leaf V)} (w : WF lo hi dv ls)
    {s e : Int} (hs : lo ≤ s) (hse : s < e) (he : e ≤ hi) (d : ShSplit ls P X Y hi dv s e)
    (hc : Canon ls) (init : V) :
    Canon (slN (slA P X Y s e) init (hi - (e - s)) (hi, dv)) ↔
      ¬ (lo < s ∧ e = hi ∧ valueAt ls (s - 1) = some init ∧ valueAt ls (hi - 1) ≠ some init) := by
  rw [slN_canon_iff (slA_ne_nil d) (slA_chain d hc), not_iff_not]
  obtain ⟨h1, h2, h3, h4⟩ := slA_facts w hse he d
  have hlo : P = [] ↔ ¬ lo < s := by
    constructor
    · rintro rfl
      obtain ⟨v, X', rfl⟩ := d.h0 rfl
      have := w.first
      rw [d.eq] at this; simp at this; omega
    · intro h
      cases P with
      | nil => rfl
      | cons p P =>
        have := w.first
        rw [d.eq] at this; simp at this
        have := d.hP p (by simp); omega
  have v1 : valueAt ls (s - 1) = P.getLast?.map (·.2) := by
    rw [valueAt_eq w, if_pos (by omega), d.eq, lastLE_append, lastLE_none_of_gt (ls := X ++ (Y ++ [(hi, dv)])),
      lastLE_all_le (ls := P)]
    · simp
    · intro n hn; have := d.hP n hn; omega
    · intro n hn
      simp only [List.mem_append, List.mem_singleton] at hn
      rcases hn with h | h | h
      · have := d.hX n h; omega
      · have := d.hY n h; omega
      · subst h; simp; omega
  have v2 : Y = [] → valueAt ls (hi - 1) = (X.getLast?.map (·.2)).or (P.getLast?.map (·.2)) := by
    rintro rfl
    rw [valueAt_eq w, if_pos (by omega), d.eq, lastLE_append, lastLE_append,
      lastLE_none_of_gt (ls := [] ++ [(hi, dv)]), lastLE_all_le (ls := P), lastLE_all_le (ls := X)]
    · simp
    · intro n hn
      have hn2 : n ∈ ls.dropLast := by
        rw [d.eq, show P ++ (X ++ ([] ++ [(hi, dv)])) = P ++ X ++ [(hi, dv)] by simp, List.dropLast_concat]
        simp [hn]
      have := w.lt_hi n hn2; omega
    · intro n hn; have := d.hP n hn; omega
    · intro n hn; simp at hn; subst hn; simp only; omega
  rw [v1]
  constructor
  · rintro ⟨B, q, p, hA, hp, hq⟩
    have hpA : p ∈ slA P X Y s e := by rw [hA]; simp
    have hlast : (slA P X Y s e).getLast? = some p := by rw [hA]; simp
    have hY : Y = [] := by
      by_contra hne
      unfold slA at hlast
      rw [List.getLast?_append_of_ne_nil _ (by simpa using hne)] at hlast
      have := h4 p (List.mem_of_getLast? hlast); omega
    subst hY
    have hps : p.1 ≤ s := h3 p (by unfold slA at hpA; simpa using hpA)
    have heq : e = hi := by omega
    have hJ : slJ P X s ≠ [] := by
      intro hJ
      unfold slA at hpA; rw [hJ] at hpA
      have := d.hP p (by simpa using hpA); omega
    unfold slJ at hJ
    cases hX : X.getLast? with
    | none => rw [hX] at hJ; simp at hJ
    | some x =>
      rw [hX] at hJ
      simp only at hJ
      have hne : ¬ (P.getLast?.map (·.2) = some x.2) := by
        intro h; rw [if_pos h] at hJ; exact hJ rfl
      have hJe : slJ P X s = [(s, x.2)] := by unfold slJ; rw [hX]; simp only; rw [if_neg hne]
      have hA2 : P ++ [(s, x.2)] = B ++ [q] ++ [p] := by
        have := hA; unfold slA at this; rw [hJe] at this; simpa using this
      obtain ⟨hPB, -⟩ := List.append_inj' hA2 rfl
      have hPl : P.getLast?.map (·.2) = some init := by rw [hPB]; simp [hq]
      refine ⟨?_, heq, hPl, ?_⟩
      · by_contra hlt
        rw [hlo.2 hlt] at hPB; simp at hPB
      · rw [v2 rfl, hX]
        simp only [Option.map_some, Option.some_or, ne_eq, Option.some.injEq]
        intro h; apply hne; rw [hPl, h]
  · rintro ⟨c1, c2, c3, c4⟩
    have hY : Y = [] := by
      cases Y with
      | nil => rfl
      | cons y Y => have := d.hY y (by simp); omega
    subst hY
    rw [v2 rfl] at c4
    have hPne : P ≠ [] := fun h => (hlo.1 h) c1
    cases hX : X.getLast? with
    | none => rw [hX, c3] at c4; exact absurd rfl c4
    | some x =>
      rw [hX] at c4
      have hx : x.2 ≠ init := by simpa using c4
      have hJe : slJ P X s = [(s, x.2)] := by
        unfold slJ; rw [hX]; simp only
        rw [if_neg]; rw [c3]; simpa using fun h => hx h.symm
      refine ⟨P.dropLast, P.getLast hPne, (s, x.2), ?_, ?_, ?_⟩
      · unfold slA; rw [hJe]
        rw [show P.dropLast ++ [P.getLast hPne, (s, x.2)] = P.dropLast ++ [P.getLast hPne] ++ [(s, x.2)] by simp,
          List.dropLast_append_getLast]; simp
      · simp; omega
      · rw [List.getLast?_eq_some_getLast hPne] at c3; simpa using c3

end Mdds.FST
