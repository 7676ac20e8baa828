import Verif.RTree.Erase
import Mathlib.Tactic.Linarith
import Mathlib.Tactic.Ring
/-! The bulk loader: sizes of the pieces, progress, and the resulting tree. -/
namespace Mdds.RTree

open Node

variable {D : Nat} {V : Type}

/-! ### segment sizes -/

theorem segUp_spec (mn mx n : Nat) : ∀ (fuel size z : Nat), segUp mn mx n fuel size = some z → size ≤ z ∧ z < mx := by
  intro fuel
  induction fuel with
  | zero => intro size z h; simp [segUp] at h
  | succ fuel ih =>
    intro size z h
    simp only [segUp] at h
    split at h
    · split at h
      · simp at h; omega
      · have := ih _ _ h; omega
    · simp at h

theorem segDown_spec (mn n : Nat) : ∀ (s z : Nat), segDown mn n s = some z → z ≤ s ∧ mn < z := by
  intro s
  induction s with
  | zero => intro z h; simp [segDown] at h
  | succ s ih =>
    intro z h
    simp only [segDown] at h
    split at h
    · split at h
      · simp at h; omega
      · have := ih _ h; omega
    · simp at h

theorem segDown_first (mn n : Nat) : ∀ (s z : Nat), z ≤ s → mn < z → (n % z = 0 ∨ mn ≤ n % z) →
    ∃ z', segDown mn n s = some z' ∧ z ≤ z' := by
  intro s
  induction s with
  | zero => intro z h1 h2 _; omega
  | succ s ih =>
    intro z h1 h2 h3
    simp only [segDown]
    rw [if_pos (by omega)]
    split
    · exact ⟨_, rfl, h1⟩
    · rename_i h4
      have : z ≠ s + 1 := by rintro rfl; exact h4 h3
      exact ih z (by omega) h2 h3

theorem segSize_le (init mn mx n : Nat) : segSize init mn mx n ≤ init ∨ segSize init mn mx n < mx := by
  unfold segSize
  split
  · rename_i h; right; exact (segUp_spec _ _ _ _ _ _ h).2
  · left
    cases h : segDown mn n (init - 1) with
    | none => simp
    | some z => have := segDown_spec _ _ _ _ h; simp; omega

theorem segSize_ge (init mn mx n k : Nat) (hk : k ≤ init) (hm : k ≤ mn + 1) : k ≤ segSize init mn mx n := by
  unfold segSize
  split
  · rename_i h; have := segUp_spec _ _ _ _ _ _ h; omega
  · cases h : segDown mn n (init - 1) with
    | none => simpa using hk
    | some z => have := segDown_spec _ _ _ _ h; simp; omega

/-- When the starting size is above the maximum, the loop goes down to the first size that leaves an
acceptable remainder, which it finds after few steps. -/
theorem segSize_key {init mn mx c n t i : Nat} (hi : mx ≤ init) (hc : c = n * (init - 1) + t)
    (h1 : mn ≤ t + n * i) (h2 : t + n * i < init - 1 - i) :
    init - 1 - i ≤ segSize init mn mx c ∧ c % segSize init mn mx c ≤ t + n * i := by
  have hz : c = n * (init - 1 - i) + (t + n * i) := by
    have h3 : init - 1 = (init - 1 - i) + i := by omega
    have h4 : n * (init - 1) = n * (init - 1 - i) + n * i := by conv => lhs; rw [h3, Nat.mul_add]
    omega
  have hmod : c % (init - 1 - i) = t + n * i := by
    rw [hz, Nat.mul_add_mod', Nat.mod_eq_of_lt h2]
  obtain ⟨z', e1, e2⟩ := segDown_first mn c (init - 1) (init - 1 - i) (by omega) (by omega) (Or.inr (by omega))
  have e3 := segDown_spec _ _ _ _ e1
  have hs : segSize init mn mx c = z' := by
    unfold segSize
    have : mx - init = 0 := by omega
    simp [this, segUp, e1]
  rw [hs]
  refine ⟨e2, ?_⟩
  have hz' : c = n * z' + (t + n * (init - 1 - z')) := by
    have h3 : init - 1 = z' + (init - 1 - z') := by omega
    have h4 : n * (init - 1) = n * z' + n * (init - 1 - z') := by conv => lhs; rw [h3, Nat.mul_add]
    omega
  rw [hz', Nat.mul_add_mod']
  refine Nat.le_trans (Nat.mod_le _ _) ?_
  have : n * (init - 1 - z') ≤ n * i := Nat.mul_le_mul_left _ (by omega)
  omega

theorem exists_step (mn n t : Nat) (hn : 1 ≤ n) (ht : t ≤ n) (ht1 : 1 ≤ t) :
    ∃ i, mn ≤ t + n * i ∧ t + n * i ≤ n + mn - 1 + (1 - mn) ∧ i ≤ mn ∧ (mn ≤ n → i ≤ 1) ∧ (mn ≤ 1 → i = 0) := by
  induction mn with
  | zero => exact ⟨0, by omega, by simp; omega, by omega, by omega, by omega⟩
  | succ mn ih =>
    obtain ⟨i, h1, h2, h3, h4, h5⟩ := ih
    by_cases h : mn + 1 ≤ t + n * i
    · exact ⟨i, h, by omega, by omega, by omega, fun h0 => h5 (by omega)⟩
    · refine ⟨i + 1, ?_, ?_, by omega, ?_, ?_⟩
      · rw [Nat.mul_add]; omega
      · rw [Nat.mul_add]; omega
      · intro h0
        have : i = 0 := by
          by_contra hne
          have : n * 1 ≤ n * i := Nat.mul_le_mul_left _ (by omega)
          omega
        omega
      · intro h0; omega

theorem ceil_spec {c n : Nat} (hn : 1 ≤ n) (hc : 1 ≤ c) :
    ∃ t, 1 ≤ t ∧ t ≤ n ∧ c = n * ((c + n - 1) / n - 1) + t ∧ 1 ≤ (c + n - 1) / n := by
  have h1 : 1 ≤ (c + n - 1) / n := by rw [Nat.le_div_iff_mul_le (by omega)]; omega
  have h2 := Nat.div_add_mod (c + n - 1) n
  have h3 := Nat.mod_lt (c + n - 1) (show n > 0 by omega)
  generalize (c + n - 1) / n = q at *
  obtain ⟨q, rfl⟩ : ∃ k, q = k + 1 := ⟨q - 1, by omega⟩
  rw [Nat.mul_add] at h2
  exact ⟨c - n * q, by omega, by omega, by simp; omega, h1⟩

/-- The last piece of a segment can be cut to capacity in one more dimension. -/
theorem rem_le {mn mx c n : Nat} (hmn : 1 ≤ mn) (hmm : 2 * mn ≤ mx) (hn : 2 ≤ n) (hc : mx < c) :
    c % segSize ((c + n - 1) / n) mn mx c ≤ n * mx := by
  obtain ⟨t, t1, t2, hct, hi⟩ := ceil_spec (c := c) (n := n) (by omega) (by omega)
  generalize hinit : (c + n - 1) / n = init at *
  by_cases hz : segSize init mn mx c ≤ n * mx
  · have : 0 < segSize init mn mx c := segSize_ge init mn mx c 1 hi (by omega)
    exact Nat.le_trans (Nat.le_of_lt (Nat.mod_lt _ this)) hz
  · have hnm : 2 * mx ≤ n * mx := Nat.mul_le_mul_right _ hn
    have hbig : n * mx < init := by
      rcases segSize_le init mn mx c with h | h <;> omega
    obtain ⟨i, s1, s2, s3, -, -⟩ := exists_step mn n t (by omega) t2 t1
    have : n + mx ≤ n * mx := by nlinarith
    have := (segSize_key (mx := mx) (by omega) hct s1 (by omega)).2
    omega

/-! ### lengths of the pieces -/

def chunkL (size : Nat) : Nat → Nat → List Nat
  | 0, _ => []
  | fuel + 1, n => if n = 0 then [] else if n ≤ size then [n] else size :: chunkL size fuel (n - size)

theorem chunk_lengths {α : Type} (size : Nat) : ∀ (fuel : Nat) (l : List α),
    (chunk size fuel l).map List.length = chunkL size fuel l.length := by
  intro fuel
  induction fuel with
  | zero => intro l; rfl
  | succ fuel ih =>
    intro l
    simp only [chunk, chunkL]
    by_cases h : l = []
    · subst h; simp
    · have : l.length ≠ 0 := by simpa using h
      simp only [List.isEmpty_iff, h, if_false, this]
      split
      · simp
      · rename_i h2
        rw [List.map_cons, ih, List.length_take, List.length_drop]
        congr 1
        omega

theorem chunk_flatten {α : Type} (size : Nat) (hs : 1 ≤ size) : ∀ (fuel : Nat) (l : List α), l.length ≤ fuel →
    (chunk size fuel l).flatten = l := by
  intro fuel
  induction fuel with
  | zero => intro l h; have : l = [] := by simpa using h
            subst this; rfl
  | succ fuel ih =>
    intro l h
    simp only [chunk]
    split
    · rename_i h0; simp at h0; subst h0; rfl
    · split
      · simp
      · rename_i h0 h1
        rw [List.flatten_cons, ih _ (by simp; omega), List.take_append_drop]

theorem chunkL_mem (size : Nat) (hs : 1 ≤ size) : ∀ (fuel n x : Nat), n ≤ fuel → x ∈ chunkL size fuel n →
    1 ≤ x ∧ x ≤ size ∧ (x = size ∨ x = n % size) := by
  intro fuel
  induction fuel with
  | zero => intro n x _ h; simp [chunkL] at h
  | succ fuel ih =>
    intro n x hn h
    simp only [chunkL] at h
    split at h
    · simp at h
    · split at h
      · simp at h; subst h
        rename_i h1 h2
        refine ⟨by omega, h2, ?_⟩
        rcases Nat.lt_or_eq_of_le h2 with h3 | h3
        · right; rw [Nat.mod_eq_of_lt h3]
        · exact Or.inl h3
      · rcases List.mem_cons.1 h with rfl | h
        · exact ⟨hs, Nat.le_refl _, Or.inl rfl⟩
        · have h0 := ih _ _ (by omega) h
          refine ⟨h0.1, h0.2.1, h0.2.2.imp id fun h3 => ?_⟩
          rw [h3, ← Nat.mod_eq_sub_mod (by omega)]

/-- One round of the dimension loop on lengths. -/
def cutDimL (mn mx n : Nat) (segs : List Nat) : List Nat :=
  segs.flatMap fun s => if s ≤ mx then [s] else chunkL (segSize ((s + n - 1) / n) mn mx s) s s

def cutAllL (mn mx n : Nat) : Nat → List Nat → List Nat
  | 0, segs => segs
  | d + 1, segs =>
    match segs with
    | [] => segs
    | s :: _ => if s ≤ mx then segs else cutAllL mn mx n d (cutDimL mn mx n segs)

theorem sortNodes_length (cfg : Cfg D V) (lt : Node D V → Node D V → Bool) (l : List (Node D V)) :
    (cfg.sortNodes lt l).length = l.length := (cfg.nodes_perm lt l).length_eq

theorem cutDim_lengths (cfg : Cfg D V) (n : Nat) (i : Fin D) (segs : List (List (Node D V))) :
    (cutDim cfg n i segs).map List.length = cutDimL cfg.minSize cfg.maxSize n (segs.map List.length) := by
  unfold cutDim cutDimL
  rw [List.map_flatMap, List.flatMap_map]
  congr 1
  funext seg
  split
  · simp
  · rw [chunk_lengths, sortNodes_length]

theorem cutAll_lengths (cfg : Cfg D V) (n : Nat) : ∀ (is : List (Fin D)) (segs : List (List (Node D V))),
    (cutAll cfg n is segs).map List.length = cutAllL cfg.minSize cfg.maxSize n is.length (segs.map List.length) := by
  intro is
  induction is with
  | nil => intro segs; rfl
  | cons i is ih =>
    intro segs
    cases segs with
    | nil => rfl
    | cons s segs =>
      simp only [cutAll, List.length_cons, List.map_cons, cutAllL]
      split
      · rfl
      · rw [ih, cutDim_lengths, List.map_cons]

theorem cutDim_perm (cfg : Cfg D V) (n : Nat) (hn : 1 ≤ n) (i : Fin D) (segs : List (List (Node D V))) :
    (cutDim cfg n i segs).flatten.Perm segs.flatten := by
  induction segs with
  | nil => exact List.Perm.refl _
  | cons s segs ih =>
    unfold cutDim at *
    rw [List.flatMap_cons, List.flatten_append, List.flatten_cons]
    refine List.Perm.append ?_ ih
    split
    · simp
    · rename_i h
      rw [chunk_flatten _ _ _ _ (by rw [sortNodes_length])]
      · exact cfg.nodes_perm _ _
      · refine segSize_ge _ _ _ _ 1 ?_ (by omega)
        rw [Nat.le_div_iff_mul_le (by omega)]; omega

theorem cutAll_perm (cfg : Cfg D V) (n : Nat) (hn : 1 ≤ n) : ∀ (is : List (Fin D)) (segs : List (List (Node D V))),
    (cutAll cfg n is segs).flatten.Perm segs.flatten := by
  intro is
  induction is with
  | nil => intro segs; exact List.Perm.refl _
  | cons i is ih =>
    intro segs
    cases segs with
    | nil => exact List.Perm.refl _
    | cons s segs =>
      simp only [cutAll]
      split
      · exact List.Perm.refl _
      · exact (ih _).trans (cutDim_perm cfg n hn i _)

/-! ### every piece fits into a node -/

/-- The pieces after some dimensions: the first one is the largest but for pieces that are small
enough to be cut to capacity in one more dimension. -/
def Pieces (mx n s : Nat) (segs : List Nat) : Prop :=
  segs.head? = some s ∧ ∀ x ∈ segs, 1 ≤ x ∧ (x ≤ mx ∨ x = s ∨ (x ≤ n * mx ∧ x < s))

theorem cutDimL_pieces {mn mx n s : Nat} (hmn : 1 ≤ mn) (hmm : 2 * mn ≤ mx) (hn : 2 ≤ n) {segs : List Nat}
    (h : Pieces mx n s segs) (hs : mx < s) :
    Pieces mx n (segSize ((s + n - 1) / n) mn mx s) (cutDimL mn mx n segs) := by
  obtain ⟨h1, h2⟩ := h
  cases segs with
  | nil => simp at h1
  | cons s0 segs =>
    simp at h1
    subst h1
    have hinit : (s0 + n - 1) / n < s0 := by
      rw [Nat.div_lt_iff_lt_mul (by omega)]
      have : s0 * 2 ≤ s0 * n := Nat.mul_le_mul_left _ hn
      by_cases h3 : n ≤ s0
      · omega
      · have : 3 * n ≤ s0 * n := Nat.mul_le_mul_right _ (by omega)
        omega
    have hz1 : ∀ x, 1 ≤ x → 1 ≤ segSize ((x + n - 1) / n) mn mx x := by
      intro x hx
      refine segSize_ge _ _ _ _ 1 ?_ (by omega)
      rw [Nat.le_div_iff_mul_le (by omega)]; omega
    have hzlt : segSize ((s0 + n - 1) / n) mn mx s0 < s0 := by
      rcases segSize_le ((s0 + n - 1) / n) mn mx s0 with h | h <;> omega
    constructor
    · unfold cutDimL
      rw [List.flatMap_cons, if_neg (by omega)]
      obtain ⟨k, rfl⟩ : ∃ k, s0 = k + 1 := ⟨s0 - 1, by omega⟩
      have e : chunkL (segSize ((k + 1 + n - 1) / n) mn mx (k + 1)) (k + 1) (k + 1) =
        segSize ((k + 1 + n - 1) / n) mn mx (k + 1) :: chunkL (segSize ((k + 1 + n - 1) / n) mn mx (k + 1)) k
          (k + 1 - segSize ((k + 1 + n - 1) / n) mn mx (k + 1)) := by
        rw [chunkL, if_neg (by omega), if_neg (by omega)]
      rw [e]; rfl
    · intro x hx
      simp only [cutDimL, List.mem_flatMap] at hx
      obtain ⟨y, hy, hx⟩ := hx
      obtain ⟨hy1, hy2⟩ := h2 y hy
      split at hx
      · simp at hx; subst hx
        exact ⟨hy1, Or.inl (by assumption)⟩
      · rename_i hym
        obtain ⟨m1, m2, m3⟩ := chunkL_mem _ (hz1 y hy1) _ _ _ (Nat.le_refl _) hx
        refine ⟨m1, ?_⟩
        rcases hy2 with h0 | h0 | h0
        · omega
        · subst h0
          rcases m3 with m3 | m3
          · exact Or.inr (Or.inl m3)
          · right; right
            refine ⟨by rw [m3]; exact rem_le hmn hmm hn hs, ?_⟩
            rw [m3]; exact Nat.mod_lt _ (hz1 y hy1)
        · left
          rcases segSize_le ((y + n - 1) / n) mn mx y with h3 | h3
          · refine Nat.le_trans m2 (Nat.le_trans h3 ?_)
            rw [← Nat.lt_succ_iff, Nat.div_lt_iff_lt_mul (by omega), Nat.succ_mul, Nat.mul_comm]
            omega
          · omega

theorem cutAllL_cap {mn mx n : Nat} (hmn : 1 ≤ mn) (hmm : 2 * mn ≤ mx) (hn : 2 ≤ n) : ∀ (d : Nat) (s : Nat)
    (segs : List Nat), Pieces mx n s segs → (s ≤ mx ∨ s ≤ mx * n ^ d) →
    ∀ x ∈ cutAllL mn mx n d segs, 1 ≤ x ∧ x ≤ mx := by
  intro d
  induction d with
  | zero =>
    intro s segs hp hs x hx
    have := hp.2 x hx
    simp at hs
    refine ⟨this.1, ?_⟩
    rcases this.2 with h | h | h <;> omega
  | succ d ih =>
    intro s segs hp hs x hx
    cases segs with
    | nil => simp [cutAllL] at hx
    | cons s0 segs =>
      have h0 : s0 = s := by simpa using hp.1
      subst h0
      simp only [cutAllL] at hx
      split at hx
      · have := hp.2 x hx
        refine ⟨this.1, ?_⟩
        rcases this.2 with h | h | h <;> omega
      · rename_i hsm
        refine ih _ _ (cutDimL_pieces hmn hmm hn hp (by omega)) ?_ x hx
        rcases segSize_le ((s0 + n - 1) / n) mn mx s0 with h | h
        · right
          refine Nat.le_trans h ?_
          rw [← Nat.lt_succ_iff, Nat.div_lt_iff_lt_mul (by omega), Nat.succ_mul]
          have : s0 ≤ mx * n ^ (d + 1) := by omega
          rw [Nat.pow_succ, ← Nat.mul_assoc] at this
          omega
        · left; omega

theorem rootUp_spec (D total : Nat) : ∀ (fuel k : Nat), total ≤ (k + fuel) ^ D → (k = 0 ∨ (k - 1) ^ D < total) →
    total ≤ (rootUp D total fuel k) ^ D ∧
    (rootUp D total fuel k = 0 ∨ (rootUp D total fuel k - 1) ^ D < total) := by
  intro fuel
  induction fuel with
  | zero => intro k h1 h2; exact ⟨h1, h2⟩
  | succ fuel ih =>
    intro k h1 h2
    simp only [rootUp]
    split
    · rename_i h; exact ⟨h, h2⟩
    · rename_i h
      refine ih (k + 1) (by rw [show k + 1 + fuel = k + (fuel + 1) by omega]; exact h1) (Or.inr ?_)
      simpa using h

/-- `n_splits_per_dim`: enough, and not more than needed. -/
theorem splits_spec {D mx N : Nat} (hD : 0 < D) (hmx : 1 ≤ mx) (hN : mx < N) :
    2 ≤ splitsPerDim D mx N ∧ N ≤ mx * splitsPerDim D mx N ^ D ∧ mx * (splitsPerDim D mx N - 1) ^ D < N := by
  obtain ⟨t, t1, t2, hc, h1⟩ := ceil_spec (c := N) (n := mx) hmx (by omega)
  have key := rootUp_spec D ((N + mx - 1) / mx) ((N + mx - 1) / mx) 0
    (by rw [Nat.zero_add]; exact Nat.le_self_pow (by omega) _) (Or.inl rfl)
  have e : splitsPerDim D mx N = rootUp D ((N + mx - 1) / mx) ((N + mx - 1) / mx) 0 := rfl
  rw [← e] at key
  generalize splitsPerDim D mx N = n at *
  generalize (N + mx - 1) / mx = q at *
  have hq : 2 ≤ q := by
    by_contra h
    have : q = 1 := by omega
    subst this; simp at hc; omega
  have hn : 2 ≤ n := by
    by_contra h
    have : n = 0 ∨ n = 1 := by omega
    rcases this with rfl | rfl
    · rw [Nat.zero_pow hD] at key; omega
    · rw [Nat.one_pow] at key; omega
  refine ⟨hn, ?_, ?_⟩
  · have : mx * q ≤ mx * n ^ D := Nat.mul_le_mul_left _ key.1
    have h3 : mx * q = mx * (q - 1) + mx := by
      obtain ⟨k, rfl⟩ : ∃ k, q = k + 1 := ⟨q - 1, by omega⟩
      simp [Nat.mul_add]
    omega
  · rcases key.2 with h | h
    · omega
    · have : mx * (n - 1) ^ D ≤ mx * (q - 1) := Nat.mul_le_mul_left _ (by omega)
      omega

/-! ### progress -/

theorem cut_head_ge {mn mx n s : Nat} (hmn : 1 ≤ mn) (hn : 1 ≤ n) (h : n < s) :
    2 ≤ segSize ((s + n - 1) / n) mn mx s := by
  refine segSize_ge _ _ _ _ 2 ?_ (by omega)
  rw [Nat.le_div_iff_mul_le (by omega)]; omega

/-- When no more splits per dimension are made than a node can hold. -/
theorem cutAllL_head {mn mx n : Nat} (hmn : 1 ≤ mn) (hmm : 2 * mn ≤ mx) (hn : 2 ≤ n) (hle : n ≤ mx) :
    ∀ (d s : Nat) (segs : List Nat), Pieces mx n s segs → 2 ≤ s →
    ∃ s', Pieces mx n s' (cutAllL mn mx n d segs) ∧ 2 ≤ s' := by
  intro d
  induction d with
  | zero => intro s segs hp hs; exact ⟨s, hp, hs⟩
  | succ d ih =>
    intro s segs hp hs
    cases segs with
    | nil => simp [Pieces] at hp
    | cons s0 segs =>
      have h0 : s0 = s := by simpa using hp.1
      subst h0
      simp only [cutAllL]
      split
      · exact ⟨s0, hp, hs⟩
      · rename_i hsm
        exact ih _ _ (cutDimL_pieces hmn hmm hn hp (by omega)) (cut_head_ge hmn (by omega) (by omega))

theorem pieces_single {mx n N : Nat} (hN : 1 ≤ N) : Pieces mx n N [N] :=
  ⟨rfl, by intro x hx; simp at hx; subst hx; exact ⟨hN, Or.inr (Or.inl rfl)⟩⟩

/-- In two dimensions the second cut is never made on a piece with no more entries than splits. -/
theorem second_cut {mn mx n N : Nat} (hmn : 1 ≤ mn) (hmm : 2 * mn ≤ mx) (hmx : 3 ≤ mx) (hn : mx < n)
    (hN : mx * (n - 1) ^ 2 < N) : n < segSize ((N + n - 1) / n) mn mx N := by
  obtain ⟨t, t1, t2, hc, hi⟩ := ceil_spec (c := N) (n := n) (by omega) (by omega)
  generalize (N + n - 1) / n = init at *
  obtain ⟨m, rfl⟩ : ∃ m, n = m + 3 := ⟨n - 3, by omega⟩
  obtain ⟨q, rfl⟩ : ∃ q, init = q + 1 := ⟨init - 1, by omega⟩
  simp only [Nat.add_sub_cancel] at hc
  have hN' : mx * ((m + 2) * (m + 2)) < N := by
    have : (m + 3 - 1) ^ 2 = (m + 2) * (m + 2) := by
      rw [show m + 3 - 1 = m + 2 by omega, Nat.pow_two]
    rw [← this]; exact hN
  have hq : mx * (m + 1) ≤ q := by
    by_contra hlt
    have h1 : (m + 3) * (q + 1) ≤ (m + 3) * (mx * (m + 1)) := Nat.mul_le_mul_left _ (by omega)
    have h2 : (m + 3) * (mx * (m + 1)) + mx = mx * ((m + 2) * (m + 2)) := by ring
    rw [Nat.mul_add] at h1
    omega
  obtain ⟨i, s1, s2, s3, s4, s5⟩ := exists_step mn (m + 3) t (by omega) t2 t1
  have hq2 : mx + mx * m ≤ q := by rw [Nat.mul_add] at hq; omega
  by_cases hmn1 : mn = 1
  · have hi0 := s5 (by omega)
    subst hi0
    have h3 : 3 * m ≤ mx * m := Nat.mul_le_mul_right _ hmx
    have := (segSize_key (init := q + 1) (mn := mn) (mx := mx) (i := 0) (by omega) (by simpa using hc) s1 (by omega)).1
    omega
  · have hi1 := s4 (by omega)
    have h3 : 4 * m ≤ mx * m := Nat.mul_le_mul_right _ (by omega)
    have := (segSize_key (init := q + 1) (mn := mn) (mx := mx) (i := i) (by omega) (by simpa using hc) s1 (by omega)).1
    omega

/-- Each level has fewer nodes than the one below it. -/
def Shrinks (D mn mx N : Nat) : Prop :=
  ∀ N', mx < N' → N' ≤ N → (cutAllL mn mx (splitsPerDim D mx N') D [N']).length < N'

theorem sum_ge_length : ∀ (l : List Nat), (∀ x ∈ l, 1 ≤ x) → l.length ≤ l.sum := by
  intro l
  induction l with
  | nil => intro _; simp
  | cons a l ih =>
    intro h
    have h1 := h a (by simp)
    have h2 := ih (fun x hx => h x (by simp [hx]))
    simp only [List.length_cons, List.sum_cons]
    omega

theorem chunkL_sum (size : Nat) (hs : 1 ≤ size) : ∀ (fuel n : Nat), n ≤ fuel → (chunkL size fuel n).sum = n := by
  intro fuel
  induction fuel with
  | zero => intro n h; simp [chunkL]; omega
  | succ fuel ih =>
    intro n h
    simp only [chunkL]
    split
    · simp; omega
    · split
      · simp
      · rw [List.sum_cons, ih _ (by omega)]; omega

theorem cutDimL_sum {mn mx n : Nat} (hn : 1 ≤ n) (segs : List Nat) : (cutDimL mn mx n segs).sum = segs.sum := by
  induction segs with
  | nil => rfl
  | cons s segs ih =>
    unfold cutDimL at *
    rw [List.flatMap_cons, List.sum_append, ih, List.sum_cons]
    congr 1
    split
    · simp
    · refine chunkL_sum _ ?_ _ _ (Nat.le_refl _)
      refine segSize_ge _ _ _ _ 1 ?_ (by omega)
      rw [Nat.le_div_iff_mul_le (by omega)]; omega

theorem cutAllL_sum {mn mx n : Nat} (hn : 1 ≤ n) : ∀ (d : Nat) (segs : List Nat),
    (cutAllL mn mx n d segs).sum = segs.sum := by
  intro d
  induction d with
  | zero => intro segs; rfl
  | succ d ih =>
    intro segs
    cases segs with
    | nil => rfl
    | cons s segs =>
      simp only [cutAllL]
      split
      · rfl
      · rw [ih, cutDimL_sum hn]

theorem shrink_of_head {mn mx n d N s : Nat} (hn : 1 ≤ n) (hp : Pieces mx n s (cutAllL mn mx n d [N])) (hs : 2 ≤ s) :
    (cutAllL mn mx n d [N]).length < N := by
  have hsum := cutAllL_sum (mn := mn) (mx := mx) hn d [N]
  generalize cutAllL mn mx n d [N] = l at *
  cases l with
  | nil => simp [Pieces] at hp
  | cons a l =>
    have h0 : a = s := by simpa using hp.1
    have := sum_ge_length l (fun x hx => (hp.2 x (by simp [hx])).1)
    simp at hsum ⊢
    omega

theorem shrinks_small {D mn mx N : Nat} (hD : 0 < D) (hmn : 1 ≤ mn) (hmm : 2 * mn ≤ mx) (hN : N ≤ mx ^ (D + 1)) :
    Shrinks D mn mx N := by
  intro N' h1 h2
  obtain ⟨n1, n2, n3⟩ := splits_spec hD (by omega) h1
  have hle : splitsPerDim D mx N' ≤ mx := by
    by_contra hlt
    have h3 : mx ^ D ≤ (splitsPerDim D mx N' - 1) ^ D := Nat.pow_le_pow_left (by omega) _
    have h4 : mx * mx ^ D ≤ mx * (splitsPerDim D mx N' - 1) ^ D := Nat.mul_le_mul_left _ h3
    rw [Nat.pow_succ, Nat.mul_comm] at hN
    omega
  obtain ⟨s', hp, hs⟩ := cutAllL_head hmn hmm n1 hle D N' [N'] (pieces_single (by omega)) (by omega)
  exact shrink_of_head (by omega) hp hs

theorem shrinks_plane {D mn mx N : Nat} (hD : 0 < D) (hD2 : D ≤ 2) (hmn : 1 ≤ mn) (hmm : 2 * mn ≤ mx) (hmx : 3 ≤ mx) :
    Shrinks D mn mx N := by
  intro N' h1 h2
  obtain ⟨n1, n2, n3⟩ := splits_spec hD (by omega) h1
  generalize splitsPerDim D mx N' = n at *
  have p0 : Pieces mx n N' [N'] := pieces_single (by omega)
  have hnN : n < N' := by
    have h3 : (n - 1) ≤ (n - 1) ^ D := Nat.le_self_pow (by omega) _
    have h4 : 3 * (n - 1) ≤ mx * (n - 1) ^ D := Nat.mul_le_mul hmx h3
    omega
  by_cases hle : n ≤ mx
  · obtain ⟨s', hp, hs⟩ := cutAllL_head hmn hmm n1 hle D N' [N'] p0 (by omega)
    exact shrink_of_head (by omega) hp hs
  · have p1 := cutDimL_pieces hmn hmm n1 p0 h1
    have s1 := cut_head_ge (mx := mx) hmn (by omega) hnN
    have e1 : ∀ d, cutAllL mn mx n (d + 1) [N'] = cutAllL mn mx n d (cutDimL mn mx n [N']) := by
      intro d; simp only [cutAllL]; rw [if_neg (by omega)]
    have hD' : D = 1 ∨ D = 2 := by omega
    rcases hD' with rfl | rfl
    · exact shrink_of_head (by omega) (by rw [e1]; exact p1) s1
    · have s2 := second_cut hmn hmm hmx (by omega) n3
      generalize segSize ((N' + n - 1) / n) mn mx N' = s at *
      by_cases hsm : s ≤ mx
      · refine shrink_of_head (s := s) (by omega) ?_ s1
        rw [e1]
        generalize cutDimL mn mx n [N'] = segs at *
        cases segs with
        | nil => exact p1
        | cons s0 segs =>
          have h0 : s0 = s := by simpa using p1.1
          subst h0
          simp only [cutAllL]; rw [if_pos hsm]; exact p1
      · refine shrink_of_head (s := segSize ((s + n - 1) / n) mn mx s) (by omega) ?_ (cut_head_ge hmn (by omega) s2)
        rw [e1]
        have p2 := cutDimL_pieces hmn hmm n1 p1 (by omega)
        generalize cutDimL mn mx n [N'] = segs at *
        cases segs with
        | nil => simp [Pieces] at p1
        | cons s0 segs =>
          have h0 : s0 = s := by simpa using p1.1
          subst h0
          simp only [cutAllL]; rw [if_neg hsm]; exact p2

/-! ### the tree -/

/-- A node built by the bulk loader whose parent pointers are not set yet. -/
def Raw (S : Shape) : Nat → Node D V → Prop
  | 0, k => ∃ kb p kv, k = .val kb p kv ∧ kb.Valid
  | h + 1, k => ∃ b p c ks, k = .dir (h == 0) b p c false ks ∧ c = ks.length ∧ Fits S.tight b (ks.map box) ∧
      S.lo ≤ c ∧ c ≤ S.hi ∧ ∀ k' ∈ ks, Raw S h k'

theorem Raw.setPar {S : Shape} {h : Nat} {k : Node D V} (q : Par) (hk : Raw S h k) : Raw S h (k.setPar q) := by
  cases h with
  | zero => obtain ⟨kb, p, kv, rfl, hv⟩ := hk; exact ⟨kb, q, kv, rfl, hv⟩
  | succ h =>
    obtain ⟨b, p, c, ks, rfl, h2⟩ := hk
    exact ⟨b, q, c, ks, rfl, h2⟩

theorem Raw.moved {S : Shape} {h : Nat} {k : Node D V} (q : Par) (hk : Raw S h k) : Raw S h (k.moved q) := by
  cases h with
  | zero => obtain ⟨kb, p, kv, rfl, hv⟩ := hk; exact ⟨kb, p, kv, rfl, hv⟩
  | succ h =>
    obtain ⟨b, p, c, ks, rfl, h2, h3, h4, h5, h6⟩ := hk
    refine ⟨b, p, c, ks.map (Node.setPar q), rfl, by simpa using h2, by simpa [Function.comp_def] using h3, h4, h5, ?_⟩
    intro k' hk'
    simp only [List.mem_map] at hk'
    obtain ⟨k0, hk0, rfl⟩ := hk'
    exact (h6 k0 hk0).setPar q

/-- `reset_parent_pointers` on a freshly built node. -/
theorem Raw.kid {S : Shape} : ∀ (h : Nat) {k : Node D V}, Raw S h k → Kid S h (k.resetKids.setPar .right) := by
  intro h
  induction h with
  | zero => intro k hk; obtain ⟨kb, p, kv, rfl, hv⟩ := hk; exact ⟨kb, kv, rfl, hv⟩
  | succ h ih =>
    intro k hk
    obtain ⟨b, p, c, ks, rfl, h2, h3, h4, h5, h6⟩ := hk
    simp only [resetKids, Bool.false_eq_true, if_false, Node.setPar]
    refine ⟨rfl, h4, h5, ?_⟩
    rw [wfn_dir]
    refine ⟨rfl, by simpa using h2, by rw [boxes_resetList]; exact h3, ?_⟩
    rw [resetList_eq]
    intro k' hk'
    simp only [List.mem_map] at hk'
    obtain ⟨k0, hk0, rfl⟩ := hk'
    exact ih (h6 k0 hk0)

/-- The shape the bulk loader guarantees. -/
def bulkShape (cfg : Cfg D V) : Shape := ⟨True, 1, cfg.maxSize, 2⟩

theorem axes_length (D : Nat) : (axes D).length = D := by simp [axes]

theorem packLevel_ok {cfg : Cfg D V} (hcfg : cfg.Ok) {depth : Nat} {store : List (Node D V)}
    (hraw : ∀ k ∈ store, Raw (bulkShape cfg) depth k) (hbig : cfg.maxSize < store.length) :
    (∀ k ∈ packLevel cfg depth store, Raw (bulkShape cfg) (depth + 1) k) ∧
    (entriesL (packLevel cfg depth store)).Perm (entriesL store) ∧
    2 ≤ (packLevel cfg depth store).length ∧
    (packLevel cfg depth store).length =
      (cutAllL cfg.minSize cfg.maxSize (splitsPerDim D cfg.maxSize store.length) D [store.length]).length := by
  have h1 := hcfg.min_pos
  have h2 := hcfg.min_max
  obtain ⟨n1, n2, n3⟩ := splits_spec hcfg.dims (by omega) hbig
  have hlens := cutAll_lengths cfg (splitsPerDim D cfg.maxSize store.length) (axes D) [store]
  have hperm := cutAll_perm cfg (splitsPerDim D cfg.maxSize store.length) (by omega) (axes D) [store]
  rw [axes_length] at hlens
  simp only [List.map_cons, List.map_nil] at hlens
  have hcap := cutAllL_cap h1 h2 n1 D store.length [store.length] (pieces_single (by omega)) (Or.inr n2)
  have hsum := cutAllL_sum (mn := cfg.minSize) (mx := cfg.maxSize) (n := splitsPerDim D cfg.maxSize store.length)
    (by omega) D [store.length]
  rw [← hlens] at hcap hsum ⊢
  unfold packLevel
  generalize cutAll cfg (splitsPerDim D cfg.maxSize store.length) (axes D) [store] = segs at *
  simp only [List.flatten_cons, List.flatten_nil, List.append_nil] at hperm
  refine ⟨?_, ?_, ?_, by simp⟩
  · intro k hk
    simp only [List.mem_map] at hk
    obtain ⟨seg, hseg, rfl⟩ := hk
    have hc := hcap seg.length (List.mem_map.2 ⟨seg, hseg, rfl⟩)
    refine ⟨_, _, _, _, rfl, by simp, ext_fits _ _, hc.1, hc.2, ?_⟩
    intro k' hk'
    simp only [List.mem_map] at hk'
    obtain ⟨k0, hk0, rfl⟩ := hk'
    refine (hraw k0 ?_).moved _
    exact hperm.mem_iff.1 (List.mem_flatten.2 ⟨seg, hseg, hk0⟩)
  · refine List.Perm.trans ?_ (entriesL_perm hperm)
    clear * -
    induction segs with
    | nil => exact List.Perm.refl _
    | cons s segs ih =>
      rw [List.map_cons, List.flatten_cons, entriesL_append]
      simp only [entriesL, entries_pack, entries]
      refine List.Perm.append ?_ ih
      rw [entriesL_map (entries_moved _)]
  · rw [List.length_map]
    by_contra hlt
    have hl : segs.length = 0 ∨ segs.length = 1 := by omega
    rcases hl with hl | hl
    · have : segs = [] := by simpa using hl
      subst this; simp at hsum; omega
    · obtain ⟨s, rfl⟩ := List.length_eq_one_iff.1 hl
      have := hcap s.length (by simp)
      simp at hsum; omega

theorem packLevels_ok {cfg : Cfg D V} (hcfg : cfg.Ok) : ∀ (fuel depth : Nat) (store : List (Node D V)),
    store.length < fuel → Shrinks D cfg.minSize cfg.maxSize store.length →
    (∀ k ∈ store, Raw (bulkShape cfg) depth k) → (0 < depth → 2 ≤ store.length) →
    ∃ depth' store', packLevels cfg fuel depth store = .ok (depth', store') ∧ store'.length ≤ cfg.maxSize ∧
      (∀ k ∈ store', Raw (bulkShape cfg) depth' k) ∧ (entriesL store').Perm (entriesL store) ∧
      (0 < depth' → 2 ≤ store'.length) := by
  intro fuel
  induction fuel with
  | zero => intro depth store h; omega
  | succ fuel ih =>
    intro depth store hf hsh hraw hd
    simp only [packLevels]
    split
    · rename_i hbig
      obtain ⟨r1, r2, r3, r4⟩ := packLevel_ok hcfg hraw hbig
      have hlt := hsh store.length hbig (Nat.le_refl _)
      rw [← r4] at hlt
      obtain ⟨d', s', e, h1, h2, h3, h4⟩ := ih (depth + 1) (packLevel cfg depth store) (by omega)
        (fun N' a b => hsh N' a (by omega)) r1 (fun _ => r3)
      exact ⟨d', s', e, h1, h2, h3.trans r2, h4⟩
    · exact ⟨depth, store, rfl, by omega, hraw, List.Perm.refl _, hd⟩

theorem bulkLoad_ok {cfg : Cfg D V} (hcfg : cfg.Ok) (vals : List (Box D × V)) (hv : ∀ x ∈ vals, x.1.Valid)
    (hsh : Shrinks D cfg.minSize cfg.maxSize vals.length) :
    ∃ t h, bulkLoad cfg vals = .ok t ∧ WFR (bulkShape cfg) h t ∧ t.entries.Perm vals := by
  obtain ⟨d, s, e, h1, h2, h3, h4⟩ := packLevels_ok hcfg (vals.length + 1) 0
    (vals.map fun x => Node.val x.1 .null x.2) (by simp) (by simpa using hsh)
    (by
      intro k hk
      simp only [List.mem_map] at hk
      obtain ⟨x, hx, rfl⟩ := hk
      exact ⟨x.1, _, x.2, rfl, hv x hx⟩) (fun h => absurd h (by omega))
  have hent : entriesL (vals.map fun x => (Node.val x.1 .null x.2 : Node D V)) = vals := by
    clear * -
    induction vals with
    | nil => rfl
    | cons x vals ih => simp only [List.map_cons, entriesL, entries, ih]; rfl
  rw [hent] at h3
  refine ⟨(((Node.dir (d == 0) Box.zero .null s.length false s).pack.1).moved .stale).reset, d,
    by simp only [bulkLoad, e], ⟨?_, ?_, ?_, ?_⟩, ?_⟩
  · simp only [pack, Node.moved, reset, setValid, resetKids, Bool.false_eq_true, if_false]
    rw [wfn_dir]
    refine ⟨rfl, by simp, ?_, ?_⟩
    · rw [boxes_resetList]
      have : (s.map (Node.setPar .stale)).map box = s.map box := by simp [Function.comp_def]
      rw [this]; exact ext_fits _ _
    · rw [resetList_eq]
      intro k hk
      simp only [List.mem_map] at hk
      obtain ⟨k1, ⟨k0, hk0, rfl⟩, rfl⟩ := hk
      exact Raw.kid d ((h2 k0 hk0).setPar _)
  · rw [par_reset]; rfl
  · rw [count_reset]; exact h1
  · intro hd; rw [count_reset]; exact h4 hd
  · rw [reset, entries_resetKids, entries_setValid, entries_moved, entries_pack]; exact h3

theorem bulkLoad_valid {cfg : Cfg D V} {vals : List (Box D × V)} {t : Node D V} (h : bulkLoad cfg vals = .ok t) :
    t.valid = true := by
  unfold bulkLoad at h
  split at h
  · cases h
  · cases h; rfl

/-! ### copying and moving -/

mutual
theorem entries_clone : (n : Node D V) → n.clone.entries = n.entries
  | .val b p v => rfl
  | .dir l b p c v ks => by simp only [clone, entries]; exact entries_cloneList ks
theorem entries_cloneList : (ks : List (Node D V)) → entriesL (cloneList ks) = entriesL ks
  | [] => rfl
  | k :: ks => by simp only [cloneList, entriesL, entries_clone k, entries_cloneList ks]
end

theorem box_clone (n : Node D V) : n.clone.box = n.box := by cases n <;> rfl

theorem Kid.clone_raw {S : Shape} : ∀ (h : Nat) {k : Node D V}, Kid S h k → Raw S h k.clone := by
  intro h
  induction h with
  | zero => intro k hk; obtain ⟨b, v, rfl, hv⟩ := hk; exact ⟨b, _, v, rfl, hv⟩
  | succ h ih =>
    intro k hk
    obtain ⟨h1, h2, h3, h4⟩ := hk
    obtain ⟨l, b, p, c, v, ks, rfl⟩ := wfn_cases h4
    obtain ⟨w1, w2, w3, w4⟩ := wfn_dir.1 h4
    subst w1
    refine ⟨b, .null, c, cloneList ks, rfl, by rw [cloneList_eq]; simpa using w2, ?_, h2, h3, ?_⟩
    · rw [cloneList_eq]
      have : (ks.map clone).map box = ks.map box := by simp [Function.comp_def, box_clone]
      rw [this]; exact w3
    · rw [cloneList_eq]
      intro k' hk'
      simp only [List.mem_map] at hk'
      obtain ⟨k0, hk0, rfl⟩ := hk'
      exact ih (w4 k0 hk0)

theorem copy_ok {S : Shape} {h : Nat} {t : Node D V} (hw : WFR S h t) :
    WFR S h (copy t) ∧ (copy t).entries = t.entries ∧ (copy t).count = t.count := by
  obtain ⟨w, p1, p2, p3⟩ := hw
  obtain ⟨l, b, p, c, v, ks, rfl⟩ := wfn_cases w
  obtain ⟨w1, w2, w3, w4⟩ := wfn_dir.1 w
  refine ⟨⟨?_, ?_, ?_, ?_⟩, ?_, ?_⟩
  · simp only [copy, clone, reset, setValid, resetKids, Bool.false_eq_true, if_false]
    rw [wfn_dir]
    refine ⟨w1, by rw [length_resetList, cloneList_eq]; simpa using w2, ?_, ?_⟩
    · rw [boxes_resetList, cloneList_eq]
      have : (ks.map clone).map box = ks.map box := by simp [Function.comp_def, box_clone]
      rw [this]; exact w3
    · rw [resetList_eq, cloneList_eq]
      intro k hk
      simp only [List.mem_map] at hk
      obtain ⟨k1, ⟨k0, hk0, rfl⟩, rfl⟩ := hk
      exact Raw.kid h (Kid.clone_raw h (w4 k0 hk0))
  · rw [copy, par_reset]; rfl
  · rw [copy, count_reset]; exact p2
  · rw [copy, count_reset]; exact p3
  · rw [copy, reset, entries_resetKids, entries_setValid, entries_clone]
  · rw [copy, count_reset]; rfl

theorem relocate_ok {S : Shape} {h : Nat} {t : Node D V} (hw : WFR S h t) :
    WFR S h (relocate t) ∧ (relocate t).entries = t.entries ∧ (relocate t).count = t.count := by
  obtain ⟨w, p1, p2, p3⟩ := hw
  refine ⟨⟨wfn_inval_reset _ w, ?_, ?_, ?_⟩, ?_, ?_⟩
  · rw [relocate, par_reset]; simpa using p1
  · rw [relocate, count_reset]; simpa using p2
  · rw [relocate, count_reset]; simpa using p3
  · rw [relocate, reset, entries_resetKids, entries_setValid, entries_moved]
  · rw [relocate, count_reset]; simp

theorem empty_ok (S : Shape) : WFR S 0 (empty : Node D V) := by
  refine ⟨?_, rfl, Nat.zero_le _, fun h => absurd h (by omega)⟩
  rw [empty, wfn_dir]
  exact ⟨rfl, rfl, ext_fits _ _, by simp⟩

end Mdds.RTree
