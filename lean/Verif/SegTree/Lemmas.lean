import Verif.SegTree.Spec
import Mathlib.Data.List.Nodup

namespace Mdds.SegTree
variable {V : Type}

/-! ### sorting -/

theorem mem_insKey (k : Int) (l : List Int) (x : Int) : x ∈ insKey k l ↔ x = k ∨ x ∈ l := by
  induction l with
  | nil => simp [insKey]
  | cons a t ih =>
    unfold insKey
    split
    · simp
    · split
      · rename_i h; subst h; simp
      · simp [ih]; tauto

theorem insKey_sorted (k : Int) (l : List Int) (h : l.Pairwise (· < ·)) : (insKey k l).Pairwise (· < ·) := by
  induction l with
  | nil => simp [insKey]
  | cons a t ih =>
    have h' := List.pairwise_cons.1 h
    unfold insKey
    split
    · rename_i hk
      refine List.pairwise_cons.2 ⟨?_, h⟩
      intro x hx
      rcases List.mem_cons.1 hx with rfl | hx
      · exact hk
      · have := h'.1 x hx; omega
    · split
      · exact h
      · refine List.pairwise_cons.2 ⟨?_, ih h'.2⟩
        intro x hx
        rcases (mem_insKey k t x).1 hx with rfl | hx
        · omega
        · exact h'.1 x hx

theorem mem_sortUnique (l : List Int) (x : Int) : x ∈ sortUnique l ↔ x ∈ l := by
  induction l with
  | nil => simp [sortUnique]
  | cons a t ih => simp only [sortUnique, List.foldr_cons] at *; rw [mem_insKey, ih]; simp

theorem sortUnique_sorted (l : List Int) : (sortUnique l).Pairwise (· < ·) := by
  induction l with
  | nil => simp [sortUnique]
  | cons a t ih => exact insKey_sorted a _ ih

theorem mem_rawKeys (segs : List (Seg V)) (x : Int) :
    x ∈ rawKeys segs ↔ ∃ s ∈ segs, x = s.start ∨ x = s.stop := by
  simp [rawKeys]

/-! ### shape of the built tree -/

/-- No key strictly inside an elementary interval. -/
def Gap (ks : List Int) (a b : Int) : Prop := ∀ x ∈ ks, x ≤ a ∨ b ≤ x

/-- `t` covers `[lo, hi)`, and below every leaf there is no boundary key. -/
def Good (ks : List Int) : Tree → Int → Int → Prop
  | .bot1 l h _ a, lo, hi => l = lo ∧ h = hi ∧ a.key = lo ∧ hi = lo
  | .bot2 l h _ a b, lo, hi =>
    l = lo ∧ h = hi ∧ a.key = lo ∧ lo < b.key ∧ b.key ≤ hi ∧ Gap ks lo b.key ∧ Gap ks b.key hi
  | .one l h _ a, lo, hi => l = lo ∧ h = hi ∧ Good ks a lo hi
  | .two l h _ a b, lo, hi => l = lo ∧ h = hi ∧ ∃ m, Good ks a lo m ∧ Good ks b m hi

theorem Good.bounds {ks : List Int} {t : Tree} {lo hi : Int} (h : Good ks t lo hi) :
    t.low = lo ∧ t.high = hi ∧ lo ≤ hi := by
  induction t generalizing lo hi with
  | bot1 l h' c a => obtain ⟨h1, h2, h3, h4⟩ := h; exact ⟨h1, h2, by omega⟩
  | bot2 l h' c a b => obtain ⟨h1, h2, h3, h4, h5, -⟩ := h; exact ⟨h1, h2, by omega⟩
  | one l h' c a ih => obtain ⟨h1, h2, h3⟩ := h; exact ⟨h1, h2, (ih h3).2.2⟩
  | two l h' c a b iha ihb =>
    obtain ⟨h1, h2, m, h3, h4⟩ := h
    have := (iha h3).2.2; have := (ihb h4).2.2
    exact ⟨h1, h2, by omega⟩

def GoodL (ks : List Int) : List Tree → Int → Int → Prop
  | [], lo, hi => lo = hi
  | t :: ts, lo, hi => ∃ m, Good ks t lo m ∧ GoodL ks ts m hi

theorem bottoms_good (ks : List Int) (rest : List Int) (a z : Int) (ha : rest.head? = some a)
    (hz : rest.getLast? = some z) (hs : rest.Pairwise (· < ·)) (hk : ∀ x ∈ ks, x < a ∨ x ∈ rest) :
    GoodL ks (bottoms rest) a z := by
  induction rest using bottoms.induct generalizing a with
  | case1 => simp at ha
  | case2 k =>
    simp at ha hz; subst ha; subst hz
    exact ⟨k, ⟨rfl, rfl, rfl, rfl⟩, rfl⟩
  | case3 k1 k2 =>
    simp at ha hz; subst ha; subst hz
    simp at hs
    refine ⟨k2, ⟨rfl, rfl, rfl, hs, by simp, ?_, ?_⟩, rfl⟩
    · intro x hx; have := hk x hx; simp at this; simp only; omega
    · intro x hx; simp only; omega
  | case4 k1 k2 k3 t ih =>
    simp at ha; subst ha
    have h1 := List.pairwise_cons.1 hs
    have h2 := List.pairwise_cons.1 h1.2
    have h3 := List.pairwise_cons.1 h2.2
    have h12 := h1.1 k2 (by simp)
    have h23 := h2.1 k3 (by simp)
    have hx' : ∀ x ∈ ks, x ≤ k1 ∨ x = k2 ∨ x = k3 ∨ k3 < x := by
      intro x hx
      rcases hk x hx with h | h
      · omega
      · simp at h
        rcases h with h | h | h | h
        · omega
        · omega
        · omega
        · have := h3.1 x h; omega
    refine ⟨k3, ⟨rfl, rfl, rfl, h12, by simp only; omega, ?_, ?_⟩, ih k3 rfl (by simpa using hz) h2.2 ?_⟩
    · intro x hx; have := hx' x hx; simp only; omega
    · intro x hx; have := hx' x hx; simp only; omega
    · intro x hx
      rcases hk x hx with h | h
      · left; omega
      · rcases List.mem_cons.1 h with rfl | h
        · left; omega
        · rcases List.mem_cons.1 h with rfl | h
          · left; omega
          · right; exact h

theorem pairUp_length (ts : List Tree) : (pairUp ts).length = (ts.length + 1) / 2 := by
  induction ts using pairUp.induct with
  | case1 => simp [pairUp]
  | case2 => simp [pairUp]
  | case3 a b ts ih => simp [pairUp, ih]; omega

theorem pairUp_good (ks : List Int) (ts : List Tree) (lo hi : Int) (h : GoodL ks ts lo hi) :
    GoodL ks (pairUp ts) lo hi := by
  induction ts using pairUp.induct generalizing lo with
  | case1 => exact h
  | case2 a =>
    obtain ⟨m, h1, h2⟩ := h
    exact ⟨m, ⟨h1.bounds.1, h1.bounds.2.1, h1⟩, h2⟩
  | case3 a b ts ih =>
    obtain ⟨m, h1, m', h2, h3⟩ := h
    exact ⟨m', ⟨h1.bounds.1, h2.bounds.2.1, m, h1, h2⟩, ih m' h3⟩

theorem buildUpN_good (ks : List Int) (n : Nat) (ts : List Tree) (hn : ts.length ≤ n + 1) (hne : ts ≠ [])
    (lo hi : Int) (h : GoodL ks ts lo hi) : ∃ t, buildUpN n ts = some t ∧ Good ks t lo hi := by
  induction n generalizing ts with
  | zero =>
    match ts with
    | [] => exact absurd rfl hne
    | [t] =>
      obtain ⟨m, h1, h2⟩ := h
      simp [GoodL] at h2; subst h2
      exact ⟨t, rfl, h1⟩
    | _ :: _ :: _ => simp at hn
  | succ n ih =>
    match ts with
    | [] => exact absurd rfl hne
    | [t] =>
      obtain ⟨m, h1, h2⟩ := h
      simp [GoodL] at h2; subst h2
      exact ⟨t, rfl, h1⟩
    | a :: b :: rest =>
      have hl : (pairUp (a :: b :: rest)).length ≤ n + 1 := by
        rw [pairUp_length]; simp at hn ⊢; omega
      exact ih _ hl (by simp [pairUp]) (pairUp_good ks _ lo hi h)

theorem buildNodes_good (ks : List Int) (hs : ks.Pairwise (· < ·)) (hne : ks ≠ []) :
    ∃ t lo hi, buildNodes ks = some t ∧ Good ks t lo hi ∧ ∀ x ∈ ks, lo ≤ x ∧ x ≤ hi := by
  obtain ⟨a, ha⟩ : ∃ a, ks.head? = some a := by cases ks with
    | nil => exact absurd rfl hne
    | cons a t => exact ⟨a, rfl⟩
  obtain ⟨z, hz⟩ : ∃ z, ks.getLast? = some z := ⟨ks.getLast hne, List.getLast?_eq_some_getLast hne⟩
  have hg := bottoms_good ks ks a z ha hz hs (fun x hx => Or.inr hx)
  have hb : bottoms ks ≠ [] := by
    match ks with
    | [] => exact absurd rfl hne
    | [k] => simp [bottoms]
    | [k1, k2] => simp [bottoms]
    | k1 :: k2 :: k3 :: t => simp [bottoms]
  obtain ⟨t, h1, h2⟩ := buildUpN_good ks (bottoms ks).length _ (by omega) hb a z hg
  refine ⟨t, a, z, h1, h2, ?_⟩
  intro x hx
  constructor
  · cases ks with
    | nil => cases hx
    | cons b t =>
      simp at ha; subst ha
      rcases List.mem_cons.1 hx with rfl | hx
      · omega
      · have := (List.pairwise_cons.1 hs).1 x hx; omega
  · have : ks = ks.dropLast ++ [z] := by
      rw [List.getLast?_eq_some_getLast hne] at hz
      rw [← Option.some.inj hz]; exact (List.dropLast_append_getLast hne).symm
    rw [this] at hs hx
    rcases List.mem_append.1 hx with hx | hx
    · have := (List.pairwise_append.1 hs).2.2 x hx z (by simp); omega
    · simp at hx; omega

/-! ### counting -/

/-- How often index `j` occurs in the answer for point `p`. -/
def cnt (p : Int) (t : Tree) (j : Nat) : Nat := (descend p t).flatten.count j

theorem cnt_out {ks : List Int} {t : Tree} {lo hi : Int} (h : Good ks t lo hi) (p : Int) (j : Nat)
    (hp : p < lo ∨ hi ≤ p) : cnt p t j = 0 := by
  have hb := h.bounds
  unfold cnt
  cases t <;> simp only [Tree.low, Tree.high] at hb <;> obtain ⟨rfl, rfl, -⟩ := hb <;>
    simp [descend, hp]

theorem markLeaf_key (i : Nat) (s e : Int) (l : LeafN) : (markLeaf i s e l).1.key = l.key := by
  unfold markLeaf; split <;> rfl

theorem markLeaf_count (i : Nat) (s e : Int) (l : LeafN) (j : Nat) :
    (markLeaf i s e l).1.chain.count j = l.chain.count j + if j = i ∧ s ≤ l.key ∧ l.key < e then 1 else 0 := by
  unfold markLeaf
  by_cases h : s ≤ l.key ∧ l.key < e
  · rw [if_pos h]
    simp only [List.count_append, List.count_singleton]
    by_cases hj : j = i
    · subst hj; simp [h]
    · simp [hj, Ne.symm hj]
  · rw [if_neg h, if_neg (by tauto)]; simp

theorem mark_bounds (i : Nat) (s e : Int) (t : Tree) :
    (mark i s e t).1.low = t.low ∧ (mark i s e t).1.high = t.high := by
  cases t <;> unfold mark <;> (split; · exact ⟨rfl, rfl⟩) <;> (split <;> exact ⟨rfl, rfl⟩)

theorem mark_good {ks : List Int} (i : Nat) (s e : Int) {t : Tree} {lo hi : Int} (h : Good ks t lo hi) :
    Good ks (mark i s e t).1 lo hi := by
  induction t generalizing lo hi with
  | bot1 l h' c a =>
    unfold mark; split
    · exact h
    · split
      · exact h
      · simpa [Good, markLeaf_key] using h
  | bot2 l h' c a b =>
    unfold mark; split
    · exact h
    · split
      · exact h
      · simpa [Good, markLeaf_key] using h
  | one l h' c a ih =>
    unfold mark; split
    · exact h
    · split
      · exact h
      · exact ⟨h.1, h.2.1, ih h.2.2⟩
  | two l h' c a b iha ihb =>
    unfold mark; split
    · exact h
    · split
      · exact h
      · obtain ⟨h1, h2, m, h3, h4⟩ := h
        exact ⟨h1, h2, m, iha h3, ihb h4⟩

theorem mark_cnt {ks : List Int} (i : Nat) {s e : Int} (hse : s < e) (hs : s ∈ ks) (he : e ∈ ks) {t : Tree}
    {lo hi : Int} (h : Good ks t lo hi) (p : Int) (j : Nat) :
    cnt p (mark i s e t).1 j =
      cnt p t j + if j = i ∧ s ≤ p ∧ p < e ∧ lo ≤ p ∧ p < hi then 1 else 0 := by
  by_cases hp : p < lo ∨ hi ≤ p
  · rw [cnt_out (mark_good i s e h) p j hp, cnt_out h p j hp, if_neg (by omega)]
  have sing : ∀ (c : List Nat), (c ++ [i]).count j = c.count j + if j = i then 1 else 0 := by
    intro c
    simp only [List.count_append, List.count_singleton]
    by_cases hj : j = i
    · simp [hj]
    · simp [hj, Ne.symm hj]
  induction t generalizing lo hi with
  | bot1 l h' c a =>
    obtain ⟨rfl, rfl, h3, h4⟩ := h
    omega
  | bot2 l h' c a b =>
    obtain ⟨rfl, rfl, h3, h4, h5, g1, g2⟩ := h
    unfold mark
    split
    · rw [if_neg (by omega)]; rfl
    · split
      · rename_i h6
        unfold cnt
        simp only [descend, if_neg hp, if_neg (show ¬ p < a.key by omega)]
        have hc : (j = i ∧ s ≤ p ∧ p < e ∧ l ≤ p ∧ p < h') ↔ j = i := by
          constructor
          · exact fun h => h.1
          · intro h; exact ⟨h, by omega, by omega, by omega, by omega⟩
        split <;> simp only [List.flatten_cons, List.count_append, sing, hc, List.flatten_nil] <;> omega
      · unfold cnt
        simp only [descend, if_neg hp, markLeaf_key, if_neg (show ¬ p < a.key by omega)]
        have gs1 := g1 s hs
        have ge1 := g1 e he
        have gs2 := g2 s hs
        have ge2 := g2 e he
        split
        · rename_i h7
          simp only [List.flatten_cons, List.count_append, markLeaf_count, List.flatten_nil]
          have hc : (j = i ∧ s ≤ b.key ∧ b.key < e) ↔ (j = i ∧ s ≤ p ∧ p < e ∧ l ≤ p ∧ p < h') := by
            constructor <;> intro hh <;> refine ⟨hh.1, ?_⟩ <;> omega
          simp only [hc]; omega
        · rename_i h7
          simp only [List.flatten_cons, List.count_append, markLeaf_count, List.flatten_nil]
          have hc : (j = i ∧ s ≤ a.key ∧ a.key < e) ↔ (j = i ∧ s ≤ p ∧ p < e ∧ l ≤ p ∧ p < h') := by
            constructor <;> intro hh <;> refine ⟨hh.1, ?_⟩ <;> omega
          simp only [hc]; omega
  | one l h' c a ih =>
    obtain ⟨rfl, rfl, h3⟩ := h
    have hb := h3.bounds
    unfold mark
    split
    · rw [if_neg (by omega)]; rfl
    · split
      · rename_i h6
        unfold cnt
        simp only [descend, if_neg hp, if_neg (show ¬ p < a.low by omega)]
        have hc : (j = i ∧ s ≤ p ∧ p < e ∧ l ≤ p ∧ p < h') ↔ j = i := by
          constructor
          · exact fun h => h.1
          · intro h; exact ⟨h, by omega, by omega, by omega, by omega⟩
        simp only [List.flatten_cons, List.count_append, sing, hc]; omega
      · have := ih h3 hp
        unfold cnt at *
        simp only [descend, if_neg hp, (mark_bounds i s e a).1, if_neg (show ¬ p < a.low by omega),
          List.flatten_cons, List.count_append, this]
        omega
  | two l h' c a b iha ihb =>
    obtain ⟨rfl, rfl, m, h3, h4⟩ := h
    have hba := h3.bounds
    have hbb := h4.bounds
    unfold mark
    split
    · rw [if_neg (by omega)]; rfl
    · split
      · rename_i h6
        unfold cnt
        simp only [descend, if_neg hp, if_neg (show ¬ p < a.low by omega)]
        have hc : (j = i ∧ s ≤ p ∧ p < e ∧ l ≤ p ∧ p < h') ↔ j = i := by
          constructor
          · exact fun h => h.1
          · intro h; exact ⟨h, by omega, by omega, by omega, by omega⟩
        split <;> simp only [List.flatten_cons, List.count_append, sing, hc] <;> omega
      · by_cases hm : a.high ≤ p
        · have := ihb h4 (by omega)
          unfold cnt at *
          simp only [descend, if_neg hp, (mark_bounds i s e a).1, (mark_bounds i s e a).2,
            if_neg (show ¬ p < a.low by omega), if_pos hm, List.flatten_cons, List.count_append, this]
          have hc : (j = i ∧ s ≤ p ∧ p < e ∧ m ≤ p ∧ p < h') ↔ (j = i ∧ s ≤ p ∧ p < e ∧ l ≤ p ∧ p < h') := by
            constructor <;> intro hh <;> refine ⟨hh.1, ?_⟩ <;> omega
          simp only [hc]; omega
        · have := iha h3 (by omega)
          unfold cnt at *
          simp only [descend, if_neg hp, (mark_bounds i s e a).1, (mark_bounds i s e a).2,
            if_neg (show ¬ p < a.low by omega), if_neg hm, List.flatten_cons, List.count_append, this]
          have hc : (j = i ∧ s ≤ p ∧ p < e ∧ l ≤ p ∧ p < m) ↔ (j = i ∧ s ≤ p ∧ p < e ∧ l ≤ p ∧ p < h') := by
            constructor <;> intro hh <;> refine ⟨hh.1, ?_⟩ <;> omega
          simp only [hc]; omega

/-- 1 if the segment (if any) contains the point. -/
def hit (o : Option (Seg V)) (p : Int) : Nat :=
  match o with
  | some s => if s.start ≤ p ∧ p < s.stop then 1 else 0
  | none => 0

theorem markAll_cnt {ks : List Int} (segs : List (Seg V)) (i : Nat) {t : Tree} {lo hi : Int} (h : Good ks t lo hi)
    (hs : ∀ s ∈ segs, s.start < s.stop ∧ s.start ∈ ks ∧ s.stop ∈ ks) (hk : ∀ x ∈ ks, lo ≤ x ∧ x ≤ hi)
    (p : Int) (j : Nat) :
    cnt p (markAll i segs t).1 j = cnt p t j + if i ≤ j then hit segs[j - i]? p else 0 := by
  induction segs generalizing i t with
  | nil => simp [markAll, hit]
  | cons s ss ih =>
    have h0 := hs s (by simp)
    have hlo := hk _ h0.2.1
    have hhi := hk _ h0.2.2
    simp only [markAll]
    rw [ih (i + 1) (mark_good i s.start s.stop h) (fun s' h' => hs s' (by simp [h'])),
      mark_cnt i h0.1 h0.2.1 h0.2.2 h]
    by_cases hj : j = i
    · subst hj
      simp only [true_and, Nat.le_refl, if_true, Nat.sub_self, List.getElem?_cons_zero, hit]
      have hc : (s.start ≤ p ∧ p < s.stop ∧ lo ≤ p ∧ p < hi) ↔ (s.start ≤ p ∧ p < s.stop) := by omega
      simp only [hc]
      rw [if_neg (show ¬ j + 1 ≤ j by omega)]; rfl
    · rw [if_neg (show ¬ (j = i ∧ _) by tauto)]
      by_cases hij : i ≤ j
      · have : j - i = (j - (i + 1)) + 1 := by omega
        rw [if_pos (by omega), if_pos hij, this, List.getElem?_cons_succ]; rfl
      · rw [if_neg (by omega), if_neg hij]

/-! ### chains by path -/

/-- The data chain of the node at a path. -/
def chainAt : Path → Tree → Option (List Nat)
  | [], .bot1 _ _ c _ => some c
  | [], .bot2 _ _ c _ _ => some c
  | [], .one _ _ c _ => some c
  | [], .two _ _ c _ _ => some c
  | [false], .bot1 _ _ _ a => some a.chain
  | [false], .bot2 _ _ _ a _ => some a.chain
  | [true], .bot2 _ _ _ _ b => some b.chain
  | false :: q, .one _ _ _ a => chainAt q a
  | false :: q, .two _ _ _ a _ => chainAt q a
  | true :: q, .two _ _ _ _ b => chainAt q b
  | _, _ => none

theorem mem_descend {p : Int} {t : Tree} {x : Nat} (h : x ∈ (descend p t).flatten) :
    ∃ q c, chainAt q t = some c ∧ x ∈ c := by
  induction t with
  | bot1 l h' c a =>
    simp only [descend] at h
    split at h
    · simp at h
    · split at h
      · simp at h; exact ⟨[], c, rfl, h⟩
      · simp at h
        rcases h with h | h
        · exact ⟨[], c, rfl, h⟩
        · exact ⟨[false], _, rfl, h⟩
  | bot2 l h' c a b =>
    simp only [descend] at h
    split at h
    · simp at h
    · split at h
      · simp at h; exact ⟨[], c, rfl, h⟩
      · split at h <;> simp at h <;> rcases h with h | h
        · exact ⟨[], c, rfl, h⟩
        · exact ⟨[true], _, rfl, h⟩
        · exact ⟨[], c, rfl, h⟩
        · exact ⟨[false], _, rfl, h⟩
  | one l h' c a ih =>
    simp only [descend] at h
    split at h
    · simp at h
    · split at h
      · simp at h; exact ⟨[], c, rfl, h⟩
      · rw [List.flatten_cons, List.mem_append] at h
        rcases h with h | h
        · exact ⟨[], c, rfl, h⟩
        · obtain ⟨q, c', h1, h2⟩ := ih h
          exact ⟨false :: q, c', by simpa [chainAt] using h1, h2⟩
  | two l h' c a b iha ihb =>
    simp only [descend] at h
    split at h
    · simp at h
    · split at h
      · simp at h; exact ⟨[], c, rfl, h⟩
      · split at h <;> rw [List.flatten_cons, List.mem_append] at h <;> rcases h with h | h
        · exact ⟨[], c, rfl, h⟩
        · obtain ⟨q, c', h1, h2⟩ := ihb h
          exact ⟨true :: q, c', by simpa [chainAt] using h1, h2⟩
        · exact ⟨[], c, rfl, h⟩
        · obtain ⟨q, c', h1, h2⟩ := iha h
          exact ⟨false :: q, c', by simpa [chainAt] using h1, h2⟩

theorem markLeaf_chain (i : Nat) (s e : Int) (l : LeafN) :
    (markLeaf i s e l).1.chain = if [] ∈ (markLeaf i s e l).2 then l.chain ++ [i] else l.chain := by
  unfold markLeaf; split <;> simp

theorem markLeaf_paths (i : Nat) (s e : Int) (l : LeafN) (q : Path) (h : q ∈ (markLeaf i s e l).2) : q = [] := by
  revert h
  unfold markLeaf; split <;> simp

theorem mark_chain (i : Nat) (s e : Int) (t : Tree) (q : Path) :
    chainAt q (mark i s e t).1 =
      (chainAt q t).map (fun c => if q ∈ (mark i s e t).2 then c ++ [i] else c) := by
  have hid : ∀ o : Option (List Nat), o = o.map (fun c => c) := by intro o; simp
  induction t generalizing q with
  | bot1 l h' c a =>
    unfold mark; split
    · simp
    · split
      · match q with
        | [] => simp [chainAt]
        | [false] => simp [chainAt]
        | [true] => simp [chainAt]
        | _ :: _ :: _ => simp [chainAt]
      · match q with
        | [] => simp [chainAt]
        | [false] => simp [chainAt, markLeaf_chain]
        | [true] => simp [chainAt]
        | _ :: _ :: _ => simp [chainAt]
  | bot2 l h' c a b =>
    unfold mark; split
    · simp
    · split
      · match q with
        | [] => simp [chainAt]
        | [false] => simp [chainAt]
        | [true] => simp [chainAt]
        | _ :: _ :: _ => simp [chainAt]
      · match q with
        | [] => simp [chainAt]
        | [false] => simp [chainAt, markLeaf_chain]
        | [true] => simp [chainAt, markLeaf_chain]
        | _ :: _ :: _ => simp [chainAt]
  | one l h' c a ih =>
    unfold mark; split
    · simp
    · split
      · match q with
        | [] => simp [chainAt]
        | false :: _ => simp [chainAt]
        | true :: _ => simp [chainAt]
      · match q with
        | [] => simp [chainAt]
        | false :: q => simp [chainAt, ih]
        | true :: _ => simp [chainAt]
  | two l h' c a b iha ihb =>
    unfold mark; split
    · simp
    · split
      · match q with
        | [] => simp [chainAt]
        | false :: _ => simp [chainAt]
        | true :: _ => simp [chainAt]
      · match q with
        | [] => simp [chainAt]
        | false :: q => simp [chainAt, iha]
        | true :: q => simp [chainAt, ihb]

theorem mark_paths (i : Nat) (s e : Int) (t : Tree) (q : Path) (h : q ∈ (mark i s e t).2) :
    (chainAt q t).isSome := by
  induction t generalizing q with
  | bot1 l h' c a =>
    unfold mark at h; split at h
    · simp at h
    · split at h
      · simp at h; subst h; rfl
      · simp only [List.mem_map] at h
        obtain ⟨q', h1, rfl⟩ := h
        rw [markLeaf_paths i s e a q' h1]; rfl
  | bot2 l h' c a b =>
    unfold mark at h; split at h
    · simp at h
    · split at h
      · simp at h; subst h; rfl
      · simp only [List.mem_append, List.mem_map] at h
        rcases h with ⟨q', h1, rfl⟩ | ⟨q', h1, rfl⟩
        · rw [markLeaf_paths i s e a q' h1]; rfl
        · rw [markLeaf_paths i s e b q' h1]; rfl
  | one l h' c a ih =>
    unfold mark at h; split at h
    · simp at h
    · split at h
      · simp at h; subst h; rfl
      · simp only [List.mem_map] at h
        obtain ⟨q', h1, rfl⟩ := h
        simpa [chainAt] using ih q' h1
  | two l h' c a b iha ihb =>
    unfold mark at h; split at h
    · simp at h
    · split at h
      · simp at h; subst h; rfl
      · simp only [List.mem_append, List.mem_map] at h
        rcases h with ⟨q', h1, rfl⟩ | ⟨q', h1, rfl⟩
        · simpa [chainAt] using iha q' h1
        · simpa [chainAt] using ihb q' h1

/-! ### removal -/

theorem rmChain_count (i : Nat) (c : List Nat) (j : Nat) (hj : j ≠ i) : (rmChain i c).count j = c.count j := by
  unfold rmChain
  cases h1 : c.idxOf? i with
  | none => rfl
  | some k =>
    cases h2 : c.getLast? with
    | none => rfl
    | some l =>
      simp only
      obtain ⟨hk, hki⟩ : ∃ h : k < c.length, c[k] = i := by
        have := List.idxOf?_eq_some_iff.1 h1
        obtain ⟨h, h', -⟩ := this
        exact ⟨h, by simpa using h'⟩
      have hne : c ≠ [] := by rintro rfl; simp at hk
      have hl : c.getLast hne = l := by rw [List.getLast?_eq_some_getLast hne] at h2; exact Option.some.inj h2
      have hc : c = c.dropLast ++ [l] := by rw [← hl]; exact (List.dropLast_append_getLast hne).symm
      by_cases hkl : k = c.length - 1
      · have hli : l = i := by
          rw [← hki, ← hl, List.getLast_eq_getElem]; congr 1; exact hkl.symm
        have : (c.set k l).dropLast = c.dropLast := by
          rw [List.dropLast_eq_take, List.dropLast_eq_take, List.length_set, List.take_set_of_le (by omega)]
        rw [this]
        conv_rhs => rw [hc]
        rw [List.count_append, hli, List.count_singleton]
        simp [Ne.symm hj]
      · have hkd : k < c.dropLast.length := by simp; omega
        have : (c.set k l).dropLast = c.dropLast.set k l := by
          rw [List.dropLast_eq_take, List.dropLast_eq_take, List.length_set, List.take_set]
        rw [this]
        conv_rhs => rw [hc]
        rw [List.count_append, List.count_set hkd, List.getElem_dropLast, hki, List.count_singleton]
        simp [Ne.symm hj]

theorem rmChain_not_mem (i : Nat) (c : List Nat) (h : c.Nodup) : i ∉ rmChain i c := by
  unfold rmChain
  cases h1 : c.idxOf? i with
  | none => simpa [List.idxOf?_eq_none_iff] using h1
  | some k =>
    obtain ⟨hk, hki⟩ : ∃ h : k < c.length, c[k] = i := by
      have := List.idxOf?_eq_some_iff.1 h1
      obtain ⟨h, h', -⟩ := this
      exact ⟨h, by simpa using h'⟩
    have hne : c ≠ [] := by rintro rfl; simp at hk
    rw [List.getLast?_eq_some_getLast hne]
    simp only
    intro hm
    obtain ⟨n, hn, hni⟩ := List.getElem_of_mem hm
    simp at hn
    rw [List.getElem_dropLast, List.getElem_set] at hni
    split at hni
    · rename_i hkn
      rw [List.getLast_eq_getElem] at hni
      have : c[c.length - 1] = c[k] := by rw [hni, hki]
      have := (List.Nodup.getElem_inj_iff h).1 this
      omega
    · rename_i hkn
      have : c[n] = c[k] := by rw [hni, hki]
      have := (List.Nodup.getElem_inj_iff h).1 this
      omega

theorem rmChain_mem_of {i x : Nat} {c : List Nat} (h : x ∈ rmChain i c) : x ∈ c := by
  unfold rmChain at h
  cases h1 : c.idxOf? i with
  | none => rw [h1] at h; exact h
  | some k =>
    cases h2 : c.getLast? with
    | none => rw [h1, h2] at h; exact h
    | some l =>
      rw [h1, h2] at h
      simp only at h
      have := List.dropLast_subset _ h
      rcases List.mem_or_eq_of_mem_set this with h | rfl
      · exact h
      · exact List.mem_of_getLast? h2

theorem rmChain_nodup {i : Nat} {c : List Nat} (h : c.Nodup) : (rmChain i c).Nodup := by
  rw [List.nodup_iff_count] at h
  refine List.nodup_iff_count.2 fun a => ?_
  by_cases ha : a = i
  · subst ha
    have := rmChain_not_mem a c (List.nodup_iff_count.2 h)
    rw [List.count_eq_zero_of_not_mem this]; omega
  · rw [rmChain_count i c a ha]; exact h a

theorem removeAt_spec {i : Nat} {q : Path} {t : Tree} (h : (chainAt q t).isSome) :
    ∃ t', removeAt i q t = some t' ∧ t'.low = t.low ∧ t'.high = t.high ∧
      (∀ r, chainAt r t' = if r = q then (chainAt r t).map (rmChain i) else chainAt r t) ∧
      ∀ p j, j ≠ i → cnt p t' j = cnt p t j := by
  induction t generalizing q with
  | bot1 l h' c a =>
    match q with
    | [] =>
      refine ⟨_, rfl, rfl, rfl, ?_, ?_⟩
      · intro r; match r with
        | [] => simp [chainAt]
        | [false] => simp [chainAt]
        | [true] => simp [chainAt]
        | _ :: _ :: _ => simp [chainAt]
      · intro p j hj
        unfold cnt; simp only [descend]
        split
        · rfl
        · split <;> simp [rmChain_count i _ j hj]
    | [false] =>
      refine ⟨_, rfl, rfl, rfl, ?_, ?_⟩
      · intro r; match r with
        | [] => simp [chainAt]
        | [false] => simp [chainAt]
        | [true] => simp [chainAt]
        | _ :: _ :: _ => simp [chainAt]
      · intro p j hj
        unfold cnt; simp only [descend]
        split
        · rfl
        · split <;> simp [rmChain_count i _ j hj]
    | [true] => simp [chainAt] at h
    | _ :: _ :: _ => simp [chainAt] at h
  | bot2 l h' c a b =>
    match q with
    | [] =>
      refine ⟨_, rfl, rfl, rfl, ?_, ?_⟩
      · intro r; match r with
        | [] => simp [chainAt]
        | [false] => simp [chainAt]
        | [true] => simp [chainAt]
        | _ :: _ :: _ => simp [chainAt]
      · intro p j hj
        unfold cnt; simp only [descend]
        split
        · rfl
        · split
          · simp [rmChain_count i _ j hj]
          · split <;> simp [rmChain_count i _ j hj]
    | [false] =>
      refine ⟨_, rfl, rfl, rfl, ?_, ?_⟩
      · intro r; match r with
        | [] => simp [chainAt]
        | [false] => simp [chainAt]
        | [true] => simp [chainAt]
        | _ :: _ :: _ => simp [chainAt]
      · intro p j hj
        unfold cnt; simp only [descend]
        split
        · rfl
        · split
          · simp [rmChain_count i _ j hj]
          · split <;> simp [rmChain_count i _ j hj]
    | [true] =>
      refine ⟨_, rfl, rfl, rfl, ?_, ?_⟩
      · intro r; match r with
        | [] => simp [chainAt]
        | [false] => simp [chainAt]
        | [true] => simp [chainAt]
        | _ :: _ :: _ => simp [chainAt]
      · intro p j hj
        unfold cnt; simp only [descend]
        split
        · rfl
        · split
          · simp [rmChain_count i _ j hj]
          · split <;> simp [rmChain_count i _ j hj]
    | _ :: _ :: _ => simp [chainAt] at h
  | one l h' c a ih =>
    match q with
    | [] =>
      refine ⟨_, rfl, rfl, rfl, ?_, ?_⟩
      · intro r; match r with
        | [] => simp [chainAt]
        | false :: _ => simp [chainAt]
        | true :: _ => simp [chainAt]
      · intro p j hj
        unfold cnt; simp only [descend]
        split
        · rfl
        · split <;> simp [rmChain_count i _ j hj, List.count_append]
    | false :: q =>
      obtain ⟨t', h1, h2, h3, h4, h5⟩ := ih (q := q) (by simpa [chainAt] using h)
      refine ⟨.one l h' c t', by simp [removeAt, h1], rfl, rfl, ?_, ?_⟩
      · intro r; match r with
        | [] => simp [chainAt]
        | false :: r => simp [chainAt, h4 r]
        | true :: _ => simp [chainAt]
      · intro p j hj
        have := h5 p j hj
        unfold cnt at *; simp only [descend, h2]
        split
        · rfl
        · split
          · rfl
          · simp [List.count_append, this]
    | true :: _ => simp [chainAt] at h
  | two l h' c a b iha ihb =>
    match q with
    | [] =>
      refine ⟨_, rfl, rfl, rfl, ?_, ?_⟩
      · intro r; match r with
        | [] => simp [chainAt]
        | false :: _ => simp [chainAt]
        | true :: _ => simp [chainAt]
      · intro p j hj
        unfold cnt; simp only [descend]
        split
        · rfl
        · split
          · simp [rmChain_count i _ j hj]
          · split <;> simp [rmChain_count i _ j hj, List.count_append]
    | false :: q =>
      obtain ⟨t', h1, h2, h3, h4, h5⟩ := iha (q := q) (by simpa [chainAt] using h)
      refine ⟨.two l h' c t' b, by simp [removeAt, h1], rfl, rfl, ?_, ?_⟩
      · intro r; match r with
        | [] => simp [chainAt]
        | false :: r => simp [chainAt, h4 r]
        | true :: _ => simp [chainAt]
      · intro p j hj
        have := h5 p j hj
        unfold cnt at *; simp only [descend, h2, h3]
        split
        · rfl
        · split
          · rfl
          · split <;> simp [List.count_append, this]
    | true :: q =>
      obtain ⟨t', h1, h2, h3, h4, h5⟩ := ihb (q := q) (by simpa [chainAt] using h)
      refine ⟨.two l h' c a t', by simp [removeAt, h1], rfl, rfl, ?_, ?_⟩
      · intro r; match r with
        | [] => simp [chainAt]
        | false :: r => simp [chainAt]
        | true :: r => simp [chainAt, h4 r]
      · intro p j hj
        have := h5 p j hj
        unfold cnt at *; simp only [descend]
        split
        · rfl
        · split
          · rfl
          · split <;> simp [List.count_append, this]

theorem removeAll_spec {i : Nat} (qs : List Path) {t : Tree} (h : ∀ q ∈ qs, (chainAt q t).isSome)
    (hn : ∀ q c, chainAt q t = some c → c.Nodup) :
    ∃ t', removeAll i qs t = some t' ∧
      (∀ r, (chainAt r t').isSome = (chainAt r t).isSome) ∧
      (∀ r c, chainAt r t' = some c → c.Nodup) ∧
      (∀ r c, chainAt r t' = some c → ∃ c0, chainAt r t = some c0 ∧ ∀ x ∈ c, x ∈ c0) ∧
      (∀ r ∈ qs, ∀ c, chainAt r t' = some c → i ∉ c) ∧
      ∀ p j, j ≠ i → cnt p t' j = cnt p t j := by
  induction qs generalizing t with
  | nil =>
    exact ⟨t, rfl, fun _ => rfl, hn, fun r c hc => ⟨c, hc, fun x hx => hx⟩, by simp, fun _ _ _ => rfl⟩
  | cons q qs ih =>
    obtain ⟨t1, h1, -, -, h4, h5⟩ := removeAt_spec (i := i) (h q (by simp))
    have hsome : ∀ r, (chainAt r t1).isSome = (chainAt r t).isSome := by
      intro r; rw [h4 r]; split <;> simp
    have hn1 : ∀ r c, chainAt r t1 = some c → c.Nodup := by
      intro r c hc
      rw [h4 r] at hc
      split at hc
      · simp only [Option.map_eq_some_iff] at hc
        obtain ⟨c0, hc0, rfl⟩ := hc
        exact rmChain_nodup (hn r c0 hc0)
      · exact hn r c hc
    obtain ⟨t2, g1, g2, g3, g4, g5, g6⟩ := ih (t := t1) (fun q' hq' => by rw [hsome]; exact h q' (by simp [hq'])) hn1
    refine ⟨t2, by simp [removeAll, h1, g1], fun r => by rw [g2, hsome], g3, ?_, ?_, ?_⟩
    · intro r c hc
      obtain ⟨c1, hc1, hsub⟩ := g4 r c hc
      rw [h4 r] at hc1
      split at hc1
      · simp only [Option.map_eq_some_iff] at hc1
        obtain ⟨c0, hc0, rfl⟩ := hc1
        exact ⟨c0, hc0, fun x hx => rmChain_mem_of (hsub x hx)⟩
      · exact ⟨c1, hc1, hsub⟩
    · intro r hr c hc
      rcases List.mem_cons.1 hr with rfl | hr
      · obtain ⟨c1, hc1, hsub⟩ := g4 r c hc
        rw [h4 r, if_pos rfl] at hc1
        simp only [Option.map_eq_some_iff] at hc1
        obtain ⟨c0, hc0, rfl⟩ := hc1
        intro hi
        exact rmChain_not_mem i c0 (hn r c0 hc0) (hsub i hi)
      · exact g5 r hr c hc
    · intro p j hj; rw [g6 p j hj, h5 p j hj]

end Mdds.SegTree
