import Verif.FST.QueryLemmas

namespace Mdds.FST
variable {V : Type}

/-- `t` covers the leaves with indices `[i, j)` of the key list `ks`. -/
def Good (ks : List Int) : Tree → Nat → Nat → Prop
  | .bottom low high l r, i, j =>
    l = i ∧ i < ks.length ∧ ks[i]? = some low ∧
      match r with
      | some r => r = i + 1 ∧ j = i + 2 ∧ i + 1 < ks.length ∧ ks[min (i + 2) (ks.length - 1)]? = some high
      | none => j = i + 1 ∧ j = ks.length ∧ high = low
  | .inner1 low high a, i, j => Good ks a i j ∧ low = a.low ∧ high = a.high
  | .inner2 low high a b, i, j => ∃ m, Good ks a i m ∧ Good ks b m j ∧ low = a.low ∧ high = b.high

theorem Good.facts {ks : List Int} {t : Tree} {i j : Nat} (h : Good ks t i j) :
    i < j ∧ j ≤ ks.length ∧ ks[i]? = some t.low ∧ ks[min j (ks.length - 1)]? = some t.high := by
  induction t generalizing i j with
  | bottom low high l r =>
    obtain ⟨h1, h2, h3, h4⟩ := h
    cases r with
    | some r =>
      obtain ⟨h5, h6, h7, h8⟩ := h4
      refine ⟨by omega, by omega, h3, ?_⟩
      rw [h6]; exact h8
    | none =>
      obtain ⟨h5, h6, h7⟩ := h4
      refine ⟨by omega, by omega, h3, ?_⟩
      have : min j (ks.length - 1) = i := by omega
      rw [this, h3]; simp [Tree.high, h7]
  | inner1 low high a ih =>
    obtain ⟨h1, h2, h3⟩ := h
    have := ih h1
    simp only [Tree.low, Tree.high, h2, h3]; exact this
  | inner2 low high a b iha ihb =>
    obtain ⟨m, h1, h2, h3, h4⟩ := h
    have fa := iha h1
    have fb := ihb h2
    simp only [Tree.low, Tree.high, h3, h4]
    exact ⟨by omega, fb.2.1, fa.2.2.1, fb.2.2.2⟩

def GoodL (ks : List Int) : List Tree → Nat → Nat → Prop
  | [], i, j => i = j
  | t :: ts, i, j => ∃ m, Good ks t i m ∧ GoodL ks ts m j

theorem buildBottom_good (ks : List Int) (i : Nat) (rest : List Int) (h : ks.drop i = rest)
    (hi : i ≤ ks.length) : GoodL ks (buildBottom i rest) i ks.length := by
  induction i, rest using buildBottom.induct with
  | case1 i => simp [buildBottom, GoodL]; have := congrArg List.length h; simp at this; omega
  | case2 i k =>
    have hl := congrArg List.length h; simp at hl
    have h0 : ks[i]? = some k := by rw [← List.head?_drop, h]; rfl
    refine ⟨i + 1, ⟨rfl, by omega, h0, rfl, by omega, rfl⟩, ?_⟩
    simp [GoodL]; omega
  | case3 i k1 k2 =>
    have hl := congrArg List.length h; simp at hl
    have h0 : ks[i]? = some k1 := by rw [← List.head?_drop, h]; rfl
    have h1 : ks[i + 1]? = some k2 := by rw [← List.getElem?_drop, h]; rfl
    refine ⟨i + 2, ⟨rfl, by omega, h0, rfl, rfl, by omega, ?_⟩, ?_⟩
    · have : min (i + 2) (ks.length - 1) = i + 1 := by omega
      rw [this, h1]
    · simp [GoodL]; omega
  | case4 i k1 k2 k3 t ih =>
    have hl := congrArg List.length h; simp at hl
    have h0 : ks[i]? = some k1 := by rw [← List.head?_drop, h]; rfl
    have h2 : ks[i + 2]? = some k3 := by rw [← List.getElem?_drop, h]; rfl
    have hd : ks.drop (i + 2) = k3 :: t := by rw [← List.drop_drop, h]; rfl
    refine ⟨i + 2, ⟨rfl, by omega, h0, rfl, rfl, by omega, ?_⟩, ih hd (by omega)⟩
    have : min (i + 2) (ks.length - 1) = i + 2 := by omega
    rw [this, h2]

theorem pairUp_good (ks : List Int) (ts : List Tree) (i j : Nat) (h : GoodL ks ts i j) :
    GoodL ks (pairUp ts) i j := by
  induction ts using pairUp.induct generalizing i with
  | case1 => exact h
  | case2 a =>
    obtain ⟨m, h1, h2⟩ := h
    exact ⟨m, ⟨h1, rfl, rfl⟩, h2⟩
  | case3 a b ts ih =>
    obtain ⟨m, h1, m', h2, h3⟩ := h
    exact ⟨m', ⟨m, h1, h2, rfl, rfl⟩, ih m' h3⟩

theorem buildUpN_good (ks : List Int) (n : Nat) (ts : List Tree) (hn : ts.length ≤ n + 1) (i j : Nat)
    (h : GoodL ks ts i j) :
    (ts = [] ∧ buildUpN n ts = none) ∨ ∃ t, buildUpN n ts = some t ∧ Good ks t i j := by
  induction n generalizing ts with
  | zero =>
    match ts with
    | [] => left; exact ⟨rfl, rfl⟩
    | [t] =>
      right
      obtain ⟨m, h1, h2⟩ := h
      simp [GoodL] at h2; subst h2
      exact ⟨t, rfl, h1⟩
    | _ :: _ :: _ => simp at hn
  | succ n ih =>
    match ts with
    | [] => left; exact ⟨rfl, rfl⟩
    | [t] =>
      right
      obtain ⟨m, h1, h2⟩ := h
      simp [GoodL] at h2; subst h2
      exact ⟨t, rfl, h1⟩
    | a :: b :: rest =>
      right
      have hl : (pairUp (a :: b :: rest)).length ≤ n + 1 := by
        rw [pairUp_length]; simp at hn ⊢; omega
      rcases ih _ hl (pairUp_good ks _ i j h) with ⟨h1, -⟩ | ⟨t, h1, h2⟩
      · simp [pairUp] at h1
      · exact ⟨t, h1, h2⟩

theorem buildUp_good (ks : List Int) (ts : List Tree) (i j : Nat) (h : GoodL ks ts i j) :
    (ts = [] ∧ buildUp ts = none) ∨ ∃ t, buildUp ts = some t ∧ Good ks t i j :=
  buildUpN_good ks ts.length ts (by omega) i j h

theorem buildTreeOf_good (ks : List Int) (h : ks ≠ []) :
    ∃ t, buildTreeOf ks = some t ∧ Good ks t 0 ks.length := by
  rcases buildUp_good ks _ 0 ks.length (buildBottom_good ks 0 ks (by simp) (by omega)) with ⟨h1, -⟩ | h2
  · exfalso
    revert h1
    match ks with
    | [] => exact absurd rfl h
    | [k] => simp [buildBottom]
    | [k1, k2] => simp [buildBottom]
    | k1 :: k2 :: k3 :: t => simp [buildBottom]
  · exact h2

theorem key_at {ls : List (Leaf V)} {i : Nat} {a : Leaf V} (h : ls[i]? = some a) :
    (ls.map (·.1))[i]? = some a.1 := by simp [h]

theorem descend_good {ls : List (Leaf V)} (hs : Sorted ls) {idx : Nat} {a b : Leaf V} {k : Int}
    (ha : ls[idx]? = some a) (hb : ls[idx + 1]? = some b) (h1 : a.1 ≤ k) (h2 : k < b.1)
    {t : Tree} {i j : Nat} (hg : Good (ls.map (·.1)) t i j) (hlo : t.low ≤ k) (hhi : k < t.high) :
    descend ls k t = .ok (some idx) := by
  have hln : (ls.map (·.1)).length = ls.length := by simp
  have uniq : ∀ (i : Nat) (c d : Leaf V), ls[i]? = some c → ls[i + 1]? = some d → c.1 ≤ k → k < d.1 →
      i = idx := by
    intro i c d hc hd hck hkd
    rcases Nat.lt_trichotomy i idx with h | h | h
    · rcases Nat.lt_or_ge (i + 1) idx with h' | h'
      · have := sorted_idx_lt hs hd ha h'; omega
      · have : i + 1 = idx := by omega
        subst this; rw [hd] at ha; cases ha; omega
    · exact h
    · rcases Nat.lt_or_ge (idx + 1) i with h' | h'
      · have := sorted_idx_lt hs hb hc h'; omega
      · have : idx + 1 = i := by omega
        subst this; rw [hc] at hb; cases hb; omega
  induction t generalizing i j with
  | bottom low high l r =>
    obtain ⟨rfl, g2, g3, g4⟩ := hg
    cases r with
    | none => simp [Tree.low, Tree.high] at hlo hhi; omega
    | some r =>
      obtain ⟨rfl, g6, g7, g8⟩ := g4
      rw [hln] at g7 g8
      simp at g3 g8
      obtain ⟨v1, e1⟩ := g3
      have e2 : ls[l + 1]? = some ls[l + 1] := List.getElem?_eq_getElem g7
      simp only [Tree.low, Tree.high] at hlo hhi
      unfold descend
      simp only [e1, e2]
      by_cases c1 : k < ls[l + 1].1
      · rw [if_pos ⟨hlo, c1⟩, uniq l _ _ e1 e2 hlo c1]
      · rw [if_neg (by omega), if_pos (by omega)]
        obtain ⟨v3, e3⟩ := g8
        by_cases c2 : l + 2 ≤ ls.length - 1
        · rw [Nat.min_eq_left c2] at e3
          rw [uniq (l + 1) _ _ e2 e3 (by omega) (by simpa using hhi)]
        · have : min (l + 2) (ls.length - 1) = l + 1 := by omega
          rw [this, e2] at e3
          have : ls[l + 1].1 = high := by simp at e3; rw [e3]
          omega
  | inner1 low high x ih =>
    obtain ⟨g1, g2, g3⟩ := hg
    simp only [Tree.low, Tree.high] at hlo hhi
    rw [g2] at hlo; rw [g3] at hhi
    unfold descend; rw [if_pos ⟨hlo, hhi⟩]
    exact ih g1 hlo hhi
  | inner2 low high x y ihx ihy =>
    obtain ⟨m, g1, g2, g3, g4⟩ := hg
    simp only [Tree.low, Tree.high] at hlo hhi
    rw [g3] at hlo; rw [g4] at hhi
    have fx := g1.facts
    have fy := g2.facts
    have e : x.high = y.low := by
      have h5 := fx.2.2.2
      have : min m ((ls.map (·.1)).length - 1) = m := by omega
      rw [this, fy.2.2.1] at h5
      simpa using h5.symm
    unfold descend
    by_cases c1 : k < x.high
    · rw [if_pos ⟨hlo, c1⟩]; exact ihx g1 hlo c1
    · rw [if_neg (by omega), if_pos ⟨by omega, hhi⟩]; exact ihy g2 (by omega) hhi

end Mdds.FST
