import Verif.FST.QueryLemmas

namespace Mdds.FST
variable {V : Type}

/-- Decomposition of a well-formed list for a shift: nodes before `s`, in `[s,e]`, in `(e,hi)`. -/
structure ShSplit (ls P X Y : List (Leaf V)) (hi : Int) (dv : V) (s e : Int) : Prop where
  eq : ls = P ++ (X ++ (Y ++ [(hi, dv)]))
  hP : ∀ n ∈ P, n.1 < s
  hX : ∀ n ∈ X, s ≤ n.1 ∧ n.1 ≤ e
  hY : ∀ n ∈ Y, e < n.1 ∧ n.1 < hi
  h0 : P = [] → ∃ v X', X = (s, v) :: X'

theorem WF.shSplit {lo hi : Int} {dv : V} {ls : List (Leaf V)} (w : WF lo hi dv ls) {s e : Int}
    (hs : lo ≤ s) (hsh : s < hi) (hse : s ≤ e) :
    ∃ P X Y, ShSplit ls P X Y hi dv s e := by
  have hd : Sorted ls.dropLast := w.sorted.sublist (List.dropLast_sublist ls)
  obtain ⟨P, Q, e1, hP, hQ⟩ := sorted_split hd s
  have hQs : Sorted Q := by rw [e1] at hd; exact (List.pairwise_append.1 hd).2.1
  obtain ⟨X, Y, e2, hX, hY⟩ := sorted_split hQs (e + 1)
  refine ⟨P, X, Y, ?_, hP, ?_, ?_, ?_⟩
  · rw [w.eq_snoc, e1, e2]; simp
  · intro n hn
    exact ⟨hQ n (by rw [e2]; simp [hn]), by have := hX n hn; omega⟩
  · intro n hn
    exact ⟨by have := hY n hn; omega, w.lt_hi n (by rw [e1, e2]; simp [hn])⟩
  · rintro rfl
    obtain ⟨v, b, t, e3⟩ := w.two
    have e4 : ls.dropLast = (lo, v) :: (b :: t).dropLast := by
      rw [e3, List.dropLast_cons_of_ne_nil (by simp)]
    rw [e1] at e4; simp at e4
    rw [e2] at e4
    cases X with
    | nil =>
      simp at e4; rw [e4] at hY
      have := hY (lo, v) (by simp); simp at this; omega
    | cons x X =>
      simp at e4
      have h1 := hQ x (by rw [e2]; simp)
      have : lo = s := by rw [e4.1] at h1; simp at h1; omega
      subst this
      exact ⟨v, X, by rw [e4.1]⟩

variable [DecidableEq V]

/-- The node kept for the end of the removed range. -/
def slJ (P X : List (Leaf V)) (s : Int) : List (Leaf V) :=
  match X.getLast? with
  | none => []
  | some x => if P.getLast?.map (·.2) = some x.2 then [] else [(s, x.2)]

/-- Nodes before the right leaf, before the tail is reset to the default value. -/
def slA (P X Y : List (Leaf V)) (s e : Int) : List (Leaf V) :=
  P ++ slJ P X s ++ Y.map (fun n => (n.1 - (e - s), n.2))

def slN (A : List (Leaf V)) (init : V) (k : Int) (r : Leaf V) : List (Leaf V) :=
  match A.getLast? with
  | none => A ++ [r]
  | some p =>
    if p.1 = k then A.dropLast ++ [(p.1, init), r]
    else if p.2 = init then A ++ [r]
    else A ++ [(k, init), r]

theorem appendNewSegment_nf (A : List (Leaf V)) (hA : A ≠ []) (r : Leaf V) (init : V) (k : Int) :
    (appendNewSegment (A ++ [r]) init k).map (·.1) = .ok (slN A init k r) := by
  obtain ⟨B, p, rfl⟩ : ∃ B p, A = B ++ [p] := ⟨_, _, (List.dropLast_append_getLast hA).symm⟩
  have h1 : ¬ ((B ++ [p] ++ [r]).length < 2) := by simp
  have h2 : (B ++ [p] ++ [r])[(B ++ [p] ++ [r]).length - 2]? = some p := by
    have : (B ++ [p] ++ [r]).length - 2 = B.length := by simp
    rw [this, List.append_assoc, List.getElem?_append_right (by omega)]; simp
  have h3 : (B ++ [p] ++ [r])[(B ++ [p] ++ [r]).length - 1]? = some r := by
    rw [← List.getLast?_eq_getElem?]; simp
  have h4 : (B ++ [p] ++ [r]).take ((B ++ [p] ++ [r]).length - 2) = B := by
    have : (B ++ [p] ++ [r]).length - 2 = B.length := by simp
    rw [this, List.append_assoc, List.take_left]
  have h5 : (B ++ [p] ++ [r]).take ((B ++ [p] ++ [r]).length - 1) = B ++ [p] := by
    have : (B ++ [p] ++ [r]).length - 1 = (B ++ [p]).length := by simp
    rw [this, List.take_left]
  unfold appendNewSegment
  simp only [h1, if_false, h2, h3, h4, h5]
  unfold slN
  simp only [List.getLast?_concat, List.dropLast_concat]
  split
  · rfl
  · split <;> rfl

theorem slA_ne_nil {ls P X Y : List (Leaf V)} {hi : Int} {dv : V} {s e : Int}
    (d : ShSplit ls P X Y hi dv s e) : slA P X Y s e ≠ [] := by
  unfold slA
  intro h
  have h1 : P = [] ∧ slJ P X s = [] ∧ Y = [] := by simpa [and_assoc] using h
  obtain ⟨h2, h3, -⟩ := h1
  obtain ⟨v, X', rfl⟩ := d.h0 h2
  subst h2
  unfold slJ at h3
  rw [List.getLast?_eq_some_getLast (by simp)] at h3
  simp at h3

omit [DecidableEq V] in
theorem shiftKeysLeft_nf (A B : List (Leaf V)) (r : Leaf V) (dl : Int) :
    shiftKeysLeft (A ++ (B ++ [r])) A.length dl = A ++ B.map (fun n => (n.1 - dl, n.2)) ++ [r] := by
  unfold shiftKeysLeft
  simp

theorem shiftLeft_nf {lo hi : Int} {dv : V} {ls P X Y : List (Leaf V)} (w : WF lo hi dv ls) {s e : Int}
    (hs : lo ≤ s) (hse : s < e) (he : e ≤ hi) (d : ShSplit ls P X Y hi dv s e) (init : V) :
    (shiftLeftLeaves ls init s e).map (·.1) =
      .ok (slN (slA P X Y s e) init (hi - (e - s)) (hi, dv)) := by
  have hQ : ∀ n ∈ X ++ (Y ++ [(hi, dv)]), s ≤ n.1 := by
    intro n hn
    simp only [List.mem_append, List.mem_singleton] at hn
    rcases hn with h | h | h
    · exact (d.hX n h).1
    · have := d.hY n h; omega
    · subst h; simp; omega
  have hidx : (if lo = s then some 0 else insPos ls s 1) = some P.length := by
    by_cases hl : lo = s
    · rw [if_pos hl]
      have : P = [] := by
        cases P with
        | nil => rfl
        | cons p P =>
          have h1 := w.first
          rw [d.eq] at h1; simp at h1
          have := d.hP p (by simp); omega
      rw [this]; rfl
    · rw [if_neg hl, d.eq]
      apply insPos_eq _ _ _ _ _ d.hP hQ (by simp)
      cases P with
      | nil =>
        obtain ⟨v, X', h⟩ := d.h0 rfl
        have h1 := w.first
        rw [d.eq, h] at h1; simp at h1; omega
      | cons p P => simp
  have hAne := slA_ne_nil d
  unfold shiftLeftLeaves
  rw [bounds_eq w]
  rw [if_neg (by omega)]
  simp only
  rw [if_neg (by omega), if_neg (by omega)]
  simp only [hidx]
  cases X with
  | nil =>
    have hA : slA P [] Y s e = P ++ Y.map (fun n => (n.1 - (e - s), n.2)) := by simp [slA, slJ]
    cases Y with
    | nil =>
      have hln : P.length = ls.length - 1 := by rw [d.eq]; simp
      rw [if_pos hln]
      rw [hA] at hAne ⊢
      simp only [List.map_nil, List.append_nil] at hAne ⊢
      have hk : (if hi ≤ e then s else hi - (e - s)) = hi - (e - s) := by split <;> omega
      rw [hk, ← appendNewSegment_nf P hAne, d.eq]
      simp only [List.nil_append]
      cases appendNewSegment (P ++ [(hi, dv)]) init (hi - (e - s)) <;> rfl
    | cons y Y =>
      have hln : ¬ (P.length = ls.length - 1) := by rw [d.eq]; simp
      have hnd : ls[P.length]? = some y := by rw [d.eq]; simp
      rw [if_neg hln, hnd]
      simp only
      rw [if_pos (d.hY y (by simp)).1]
      have := shiftKeysLeft_nf P (y :: Y) (hi, dv) (e - s)
      rw [show ls = P ++ (y :: Y ++ [(hi, dv)]) by rw [d.eq]; simp, this, ← hA,
        ← appendNewSegment_nf _ hAne]
      cases appendNewSegment _ init (hi - (e - s)) <;> rfl
  | cons x X =>
    have hln : ¬ (P.length = ls.length - 1) := by rw [d.eq]; simp
    have hnd : ls[P.length]? = some x := by rw [d.eq]; simp
    rw [if_neg hln, hnd]
    simp only
    have hx := (d.hX x (by simp)).2
    rw [if_neg (by omega)]
    have hd1 : ls.drop (P.length + 1) = X ++ Y ++ [(hi, dv)] := by
      rw [← List.drop_drop, d.eq, List.drop_left]; simp
    have hmid : (ls.drop (P.length + 1)).dropLast.takeWhile (fun n => decide (n.1 ≤ e)) = X := by
      rw [hd1, List.dropLast_concat, List.takeWhile_append_of_pos]
      · cases Y with
        | nil => simp
        | cons y Y => have := d.hY y (by simp); rw [List.takeWhile_cons_of_neg] <;> simp; omega
      · intro n hn; have := d.hX n (by simp [hn]); simp; omega
    have htk : ls.take P.length = P := by rw [d.eq, List.take_left]
    have hrest : ls.drop (P.length + 1 + X.length) = Y ++ [(hi, dv)] := by
      rw [← List.drop_drop, hd1, List.append_assoc, List.drop_left]
    have hlast : ((X.getLast?.map (·.2)).getD x.2) = ((x :: X).getLast (by simp)).2 := by
      cases X with
      | nil => rfl
      | cons y X => rw [List.getLast?_eq_some_getLast (List.cons_ne_nil y X), List.getLast_cons (List.cons_ne_nil y X)]; rfl
    have hpre : joinPre P s ((x :: X).getLast (by simp)).2 = P ++ slJ P (x :: X) s := by
      unfold joinPre
      unfold slJ
      rw [List.getLast?_eq_some_getLast (l := x :: X) (by simp)]
      simp only
      cases P.getLast? with
      | none => simp
      | some p =>
        simp only [Option.map_some, Option.some.injEq]
        split <;> simp
    simp only [hmid, htk, hrest, hlast, hpre]
    rw [shiftKeysLeft_nf]
    have hA : slA P (x :: X) Y s e = P ++ slJ P (x :: X) s ++ Y.map (fun n => (n.1 - (e - s), n.2)) := rfl
    rw [← hA, ← appendNewSegment_nf _ hAne]
    cases appendNewSegment _ init (hi - (e - s)) <;> rfl

end Mdds.FST
