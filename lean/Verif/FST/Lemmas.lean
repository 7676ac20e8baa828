import Verif.FST.Spec

namespace Mdds.FST
variable {V : Type}

/-- value of the last node with key `<= k` -/
def lastLE (ls : List (Leaf V)) (k : Int) : Option V :=
  ((ls.filter (fun n => decide (n.1 ≤ k))).getLast?).map (·.2)

abbrev Sorted (ls : List (Leaf V)) : Prop := ls.Pairwise (fun a b => a.1 < b.1)

@[simp] theorem lastLE_nil (k : Int) : lastLE ([] : List (Leaf V)) k = none := rfl

theorem lastLE_append (A B : List (Leaf V)) (k : Int) :
    lastLE (A ++ B) k = (lastLE B k).or (lastLE A k) := by
  unfold lastLE
  rw [List.filter_append, List.getLast?_append]
  cases (List.filter (fun n => decide (n.1 ≤ k)) B).getLast? <;> rfl

theorem lastLE_cons (a : Leaf V) (B : List (Leaf V)) (k : Int) :
    lastLE (a :: B) k = (lastLE B k).or (if a.1 ≤ k then some a.2 else none) := by
  have := lastLE_append [a] B k
  simp only [List.singleton_append] at this
  rw [this]; congr 1
  by_cases h : a.1 ≤ k <;> simp [lastLE, h]

theorem lastLE_none_of_gt {ls : List (Leaf V)} {k : Int} (h : ∀ n ∈ ls, k < n.1) :
    lastLE ls k = none := by
  unfold lastLE
  have : ls.filter (fun n => decide (n.1 ≤ k)) = [] := by
    rw [List.filter_eq_nil_iff]; intro a ha; have := h a ha; simp; omega
  simp [this]

theorem lastLE_all_le {ls : List (Leaf V)} {k : Int} (h : ∀ n ∈ ls, n.1 ≤ k) :
    lastLE ls k = ls.getLast?.map (·.2) := by
  unfold lastLE
  have : ls.filter (fun n => decide (n.1 ≤ k)) = ls := by
    rw [List.filter_eq_self]; intro a ha; simpa using h a ha
  simp [this]

theorem valueAt_eq {lo hi : Int} {dv : V} {ls : List (Leaf V)} (w : WF lo hi dv ls) (k : Int) :
    valueAt ls k = if k < hi then lastLE ls k else none := by
  obtain ⟨hlt, hs, hf, hl⟩ := w
  clear hlt
  induction ls generalizing lo with
  | nil => simp at hf
  | cons a t ih =>
    cases t with
    | nil =>
      simp at hl; subst hl
      simp [valueAt, lastLE_cons]
    | cons b t =>
      simp only [valueAt]
      have hs' := hs
      rw [List.pairwise_cons] at hs
      have hl' : (b :: t).getLast? = some (hi, dv) := by simpa [List.getLast?_cons_cons] using hl
      have ih' := ih (lo := b.1) hs.2 (by simp) hl'
      have hmem : (hi, dv) ∈ b :: t := List.mem_of_getLast? hl'
      have hb : b.1 ≤ hi := by
        rcases List.mem_cons.1 hmem with h | h
        · rw [← h]; exact Int.le_refl _
        · have := (List.pairwise_cons.1 hs.2).1 _ h; simp at this; omega
      have hab := hs.1 b (by simp)
      by_cases h1 : a.1 ≤ k ∧ k < b.1
      · have hk : k < hi := by omega
        rw [if_pos h1, if_pos hk, lastLE_cons, lastLE_none_of_gt]
        · simp [h1.1]
        · intro n hn
          rcases List.mem_cons.1 hn with h | h
          · subst h; exact h1.2
          · have := (List.pairwise_cons.1 hs.2).1 _ h; omega
      · rw [if_neg h1, ih', lastLE_cons a (b :: t)]
        by_cases hk : k < hi
        · simp only [hk, if_true]
          by_cases h2 : a.1 ≤ k
          · have h3 : b.1 ≤ k := by omega
            have : ∃ v, lastLE (b :: t) k = some v := by
              rw [lastLE_cons, if_pos h3]; cases lastLE t k <;> exact ⟨_, rfl⟩
            obtain ⟨v, hv⟩ := this; rw [hv]; rfl
          · simp only [h2, if_false]; cases lastLE (b :: t) k <;> rfl
        · simp [hk]

end Mdds.FST
