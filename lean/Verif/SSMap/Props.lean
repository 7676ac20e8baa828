import Verif.SSMap.Model
import Mathlib.Data.List.Basic

/-!
# sorted_string_map: properties C15, C16

Specification: the table read as an association list, `es.find? (·.key = k)`.
-/
namespace Mdds.SSMap
variable {V : Type}

/-! ### helper lemmas -/

theorem lowerBound_spec (lt : Nat → Bool) (n : Nat)
    (hmono : ∀ i j, i ≤ j → j < n → lt j = true → lt i = true) (fuel first len : Nat)
    (hf : len ≤ fuel) (hn : first + len ≤ n) (hlo : ∀ i < first, lt i = true)
    (hhi : ∀ i, first + len ≤ i → i < n → lt i = false) :
    lowerBound lt fuel first len ≤ n ∧ (∀ i < lowerBound lt fuel first len, lt i = true) ∧
      ∀ i, lowerBound lt fuel first len ≤ i → i < n → lt i = false := by
  induction fuel generalizing first len with
  | zero =>
    have : len = 0 := by omega
    subst this
    exact ⟨by simpa [lowerBound] using hn, by simpa [lowerBound] using hlo, by simpa [lowerBound] using hhi⟩
  | succ fuel ih =>
    unfold lowerBound
    by_cases h0 : len = 0
    · subst h0
      rw [if_pos rfl]
      exact ⟨by simpa using hn, hlo, by simpa using hhi⟩
    · rw [if_neg h0]
      simp only
      have hmid : first + len / 2 < n := by omega
      by_cases hm : lt (first + len / 2) = true
      · rw [if_pos hm]
        apply ih
        · omega
        · omega
        · intro i hi
          exact hmono i (first + len / 2) (by omega) hmid hm
        · intro i h1 h2; exact hhi i (by omega) h2
      · rw [if_neg hm]
        apply ih
        · omega
        · omega
        · exact hlo
        · intro i h1 h2
          by_contra hc
          exact hm (hmono _ i h1 h2 (by simpa using hc))

/-- Weakly increasing keys: what the constructor's debug check (`ss.inl` 74-77) demands. -/
def Sorted (es : List (Entry V)) : Prop := es.Pairwise fun a b => ¬ b.key < a.key

theorem entryLt_mono {es : List (Entry V)} (hs : Sorted es) (k : Key) (i j : Nat) (hij : i ≤ j)
    (hj : j < es.length) (h : entryLt es k j = true) : entryLt es k i = true := by
  rcases Nat.lt_or_eq_of_le hij with hlt | rfl
  · have hp := List.pairwise_iff_getElem.1 hs i j (by omega) hj hlt
    simp only [entryLt, List.getElem?_eq_getElem hj, decide_eq_true_eq] at h
    simp only [entryLt, List.getElem?_eq_getElem (show i < es.length by omega), decide_eq_true_eq]
    have hle : es[i].key ≤ es[j].key := hp
    exact List.lt_of_le_of_lt hle h
  · exact h

/-! ## C15 -/

/-- C15. On a sorted table, `find` returns the value of the first entry with the searched key, and the
null value if there is no such entry. -/
theorem C15_find (es : List (Entry V)) (null : V) (k : Key) (hs : Sorted es) :
    find es null k = ((es.find? (fun e => decide (e.key = k))).map (·.value)).getD null := by
  unfold find
  by_cases h0 : es.length = 0
  · have : es = [] := by simpa using h0
    subst this; simp
  · rw [if_neg h0]
    obtain ⟨h1, h2, h3⟩ := lowerBound_spec (entryLt es k) es.length (entryLt_mono hs k) es.length 0 es.length
      (Nat.le_refl _) (by omega) (by omega) (by omega)
    generalize lowerBound (entryLt es k) es.length 0 es.length = b at *
    by_cases hb : b < es.length
    · rw [List.getElem?_eq_getElem hb]
      simp only
      have hbefore : ∀ i, (hi : i < b) → es[i].key ≠ k := by
        intro i hi he
        have := h2 i hi
        simp only [entryLt, List.getElem?_eq_getElem (show i < es.length by omega), decide_eq_true_eq, he] at this
        exact List.lt_irrefl _ this
      by_cases hk : es[b].key = k
      · rw [if_neg (by simpa using hk)]
        have : es.find? (fun e => decide (e.key = k)) = some es[b] := by
          rw [List.find?_eq_some_iff_getElem]
          refine ⟨by simpa using hk, b, hb, rfl, ?_⟩
          intro j hj
          simpa using hbefore j hj
        rw [this]; rfl
      · rw [if_pos hk]
        have : es.find? (fun e => decide (e.key = k)) = none := by
          rw [List.find?_eq_none]
          intro e he hek
          simp only [decide_eq_true_eq] at hek
          obtain ⟨j, hj, rfl⟩ := List.getElem_of_mem he
          rcases Nat.lt_trichotomy j b with hjb | rfl | hjb
          · exact hbefore j hjb hek
          · exact hk hek
          · -- `k ≤ es[b] ≤ es[j] = k`
            have hbn := h3 b (Nat.le_refl _) hb
            simp only [entryLt, List.getElem?_eq_getElem hb, decide_eq_false_iff_not] at hbn
            have hp := List.pairwise_iff_getElem.1 hs b j hb hj hjb
            rw [hek] at hp
            exact hk (List.le_antisymm hp hbn)
        rw [this]; rfl
    · rw [List.getElem?_eq_none (by omega)]
      have : es.find? (fun e => decide (e.key = k)) = none := by
        rw [List.find?_eq_none]
        intro e he hek
        simp only [decide_eq_true_eq] at hek
        obtain ⟨j, hj, rfl⟩ := List.getElem_of_mem he
        have := h2 j (by omega)
        simp only [entryLt, List.getElem?_eq_getElem hj, decide_eq_true_eq, hek] at this
        exact List.lt_irrefl _ this
      rw [this]; rfl

/-- C15. With distinct keys, every entry of the table is found under its key. -/
theorem C15_find_entry (es : List (Entry V)) (null : V) (hs : es.Pairwise fun a b => a.key < b.key)
    (e : Entry V) (he : e ∈ es) : find es null e.key = e.value := by
  have hw : Sorted es := hs.imp fun h => by
    intro h2
    exact List.lt_irrefl _ (List.lt_trans h h2)
  rw [C15_find es null e.key hw]
  have : es.find? (fun x => decide (x.key = e.key)) = some e := by
    obtain ⟨b, hb, rfl⟩ := List.getElem_of_mem he
    rw [List.find?_eq_some_iff_getElem]
    refine ⟨by simp, b, hb, rfl, ?_⟩
    intro j hj
    have := List.pairwise_iff_getElem.1 hs j b (by omega) hb hj
    simp only [Bool.not_eq_true', decide_eq_false_iff_not]
    intro h; rw [h] at this; exact List.lt_irrefl _ this
  rw [this]; rfl

/-- C15. A key that is not in the table gives the null value (also on an unsorted table). -/
theorem C15_find_absent (es : List (Entry V)) (null : V) (k : Key) (h : ∀ e ∈ es, e.key ≠ k) :
    find es null k = null := by
  unfold find
  split
  · rfl
  · split
    · rfl
    · rename_i e he
      have hm : e ∈ es := List.mem_of_getElem? he
      rw [if_pos (h e hm)]

/-- C15. The precondition is needed: on an unsorted table an entry can be missed. -/
theorem C15_unsorted_fails :
    ∃ (es : List (Entry Nat)) (e : Entry Nat), e ∈ es ∧ find es 0 e.key = 0 ∧ e.value ≠ 0 :=
  ⟨[⟨[98], 1⟩, ⟨[97], 2⟩], ⟨[97], 2⟩, by decide, by decide, by decide⟩

/-- a sorted table with a key that is a prefix of another -/
example : ([⟨[], 1⟩, ⟨[97], 2⟩, ⟨[97, 98], 3⟩, ⟨[255], 4⟩] : List (Entry Nat)).Pairwise
    (fun a b => a.key < b.key) ∧ find [⟨[], 1⟩, ⟨[97], 2⟩, ⟨[97, 98], 3⟩, ⟨[255], 4⟩] 0 [97, 98] = 3 := by
  decide

/-! ## C16 -/
variable [DecidableEq V]

/-- C16. Linear finder: the key of the first entry with that value, or the empty string. -/
theorem C16_linear (es : List (Entry V)) (v : V) :
    findKeyLinear es v = ((es.find? (fun e => decide (e.value = v))).map (·.key)).getD [] := by
  unfold findKeyLinear; cases es.find? (fun e => decide (e.value = v)) <;> rfl

theorem lookup_insertOrAssign (m : List (V × Nat)) (v w : V) (pos : Nat) :
    (insertOrAssign m v pos).lookup w = if w = v then some pos else m.lookup w := by
  induction m with
  | nil =>
    by_cases h : w = v
    · subst h; simp [insertOrAssign]
    · have : (w == v) = false := by simpa using h
      simp [insertOrAssign, List.lookup_cons, this, h]
  | cons a t ih =>
    obtain ⟨x, p⟩ := a
    unfold insertOrAssign
    by_cases hx : x = v
    · subst hx
      rw [if_pos rfl, List.lookup_cons]
      by_cases h : w = x
      · subst h; simp
      · have : (w == x) = false := by simpa using h
        simp [List.lookup_cons, this, h]
    · rw [if_neg hx, List.lookup_cons, List.lookup_cons, ih]
      by_cases h : w = x
      · subst h; simp [hx]
      · have : (w == x) = false := by simpa using h
        simp [this]

theorem hashBuild_lookup (es : List (Entry V)) (pos : Nat) (m : List (V × Nat)) (v : V) :
    (∃ i e, es[i]? = some e ∧ e.value = v ∧ (hashBuild es pos m).lookup v = some (pos + i) ∧
        ∀ j e', i < j → es[j]? = some e' → e'.value ≠ v) ∨
      ((∀ e ∈ es, e.value ≠ v) ∧ (hashBuild es pos m).lookup v = m.lookup v) := by
  induction es generalizing pos m with
  | nil => right; exact ⟨by simp, rfl⟩
  | cons a t ih =>
    unfold hashBuild
    rcases ih (pos + 1) (insertOrAssign m a.value pos) with ⟨i, e, h1, h2, h3, h4⟩ | ⟨h1, h2⟩
    · left
      refine ⟨i + 1, e, by simpa using h1, h2, by rw [h3]; congr 1; omega, ?_⟩
      intro j e' hj he'
      cases j with
      | zero => omega
      | succ j => exact h4 j e' (by omega) (by simpa using he')
    · rw [h2, lookup_insertOrAssign]
      by_cases hv : a.value = v
      · left
        refine ⟨0, a, rfl, hv, by simp [hv], ?_⟩
        intro j e' hj he'
        cases j with
        | zero => omega
        | succ j => exact h1 e' (List.mem_of_getElem? (by simpa using he'))
      · right
        refine ⟨?_, by rw [if_neg (Ne.symm hv)]⟩
        intro e he
        rcases List.mem_cons.1 he with rfl | he
        · exact hv
        · exact h1 e he

/-- C16. Hash finder: never reads outside the table; returns the key of the last entry with that value,
or the empty string if there is none. -/
theorem C16_hash (es : List (Entry V)) (v : V) :
    findKeyHash es v = some (((es.reverse.find? (fun e => decide (e.value = v))).map (·.key)).getD []) := by
  unfold findKeyHash
  rcases hashBuild_lookup es 0 [] v with ⟨i, e, h1, h2, h3, h4⟩ | ⟨h1, h2⟩
  · rw [h3]
    obtain ⟨hi, rfl⟩ := List.getElem?_eq_some_iff.1 h1
    have : es.reverse.find? (fun e => decide (e.value = v)) = some es[i] := by
      rw [List.find?_eq_some_iff_getElem]
      refine ⟨by simpa using h2, es.length - 1 - i, by simp; omega, ?_, ?_⟩
      · rw [List.getElem_reverse]; congr 1; omega
      · intro j hj
        rw [List.getElem_reverse]
        simp only [Bool.not_eq_true', decide_eq_false_iff_not]
        exact h4 (es.length - 1 - j) _ (by omega) (List.getElem?_eq_getElem _)
    simp [this, h1]
  · rw [h2]
    have : es.reverse.find? (fun e => decide (e.value = v)) = none := by
      rw [List.find?_eq_none]
      intro e he
      simpa using h1 e (by simpa using he)
    simp [this]

/-- C16. Both finders return a key that the table maps to the value, if there is one; and the empty
string otherwise. -/
theorem C16_sound (es : List (Entry V)) (v : V) :
    ((∃ e ∈ es, e.value = v) →
      (∃ e ∈ es, e.value = v ∧ findKeyLinear es v = e.key) ∧ (∃ e ∈ es, e.value = v ∧ findKeyHash es v = some e.key)) ∧
    ((∀ e ∈ es, e.value ≠ v) → findKeyLinear es v = [] ∧ findKeyHash es v = some []) := by
  rw [C16_linear, C16_hash]
  constructor
  · rintro ⟨e, he, hv⟩
    constructor
    · cases h : es.find? (fun e => decide (e.value = v)) with
      | none => exact absurd (by simpa using hv) (List.find?_eq_none.1 h e he)
      | some x => exact ⟨x, List.mem_of_find?_eq_some h, by simpa using List.find?_some h, rfl⟩
    · cases h : es.reverse.find? (fun e => decide (e.value = v)) with
      | none => exact absurd (by simpa using hv) (List.find?_eq_none.1 h e (by simpa using he))
      | some x => exact ⟨x, by simpa using List.mem_of_find?_eq_some h, by simpa using List.find?_some h, rfl⟩
  · intro h
    have h1 : es.find? (fun e => decide (e.value = v)) = none := by
      rw [List.find?_eq_none]; intro e he; simpa using h e he
    have h2 : es.reverse.find? (fun e => decide (e.value = v)) = none := by
      rw [List.find?_eq_none]; intro e he; simpa using h e (by simpa using he)
    simp [h1, h2]

/-- C16. If values are distinct, both finders agree, and looking up the returned key gives the value
back. -/
theorem C16_round_trip (es : List (Entry V)) (null : V) (hs : es.Pairwise fun a b => a.key < b.key)
    (hd : es.Pairwise fun a b => a.value ≠ b.value) (e : Entry V) (he : e ∈ es) :
    findKeyLinear es e.value = e.key ∧ findKeyHash es e.value = some e.key ∧
      find es null (findKeyLinear es e.value) = e.value := by
  have huniq : ∀ x ∈ es, x.value = e.value → x = e := by
    intro x hx hv
    obtain ⟨i, hi, rfl⟩ := List.getElem_of_mem hx
    obtain ⟨j, hj, rfl⟩ := List.getElem_of_mem he
    rcases Nat.lt_trichotomy i j with h | rfl | h
    · exact absurd hv (List.pairwise_iff_getElem.1 hd i j hi hj h)
    · rfl
    · exact absurd hv.symm (List.pairwise_iff_getElem.1 hd j i hj hi h)
  obtain ⟨⟨x, hx1, hx2, hx3⟩, ⟨y, hy1, hy2, hy3⟩⟩ := (C16_sound es e.value).1 ⟨e, he, rfl⟩
  rw [huniq x hx1 hx2] at hx3
  rw [huniq y hy1 hy2] at hy3
  exact ⟨hx3, hy3, by rw [hx3]; exact C15_find_entry es null hs e he⟩

/-- two keys with the same value: the finders return different keys, as the documentation allows -/
example : findKeyLinear [⟨[97], 1⟩, ⟨[98], 1⟩] 1 = [97] ∧ findKeyHash [⟨[97], 1⟩, ⟨[98], 1⟩] 1 = some [98] := by
  decide

/-- a table that meets the hypotheses of the round trip -/
example : ([⟨[], 1⟩, ⟨[97], 2⟩, ⟨[97, 98], 3⟩] : List (Entry Nat)).Pairwise (fun a b => a.key < b.key) ∧
    ([⟨[], 1⟩, ⟨[97], 2⟩, ⟨[97, 98], 3⟩] : List (Entry Nat)).Pairwise (fun a b => a.value ≠ b.value) := by
  decide

end Mdds.SSMap
