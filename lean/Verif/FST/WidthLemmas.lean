import Verif.FST.Width
import Verif.FST.StepLemmas

/-!
# flat_segment_tree over a fixed-width key type: lemmas
-/
namespace Mdds.FST

variable {V : Type}

namespace KeyType

theorem wrap_eq (K : KeyType) {y z q : Int} (hy : K.Has y) (h : z = y + (K.hi - K.lo + 1) * q) :
    K.wrap z = y := by
  obtain ⟨h1, h2⟩ := hy
  unfold wrap
  have e : z - K.lo = (y - K.lo) + (K.hi - K.lo + 1) * q := by rw [h]; omega
  rw [e, Int.add_mul_emod_self_left, Int.emod_eq_of_lt (by omega) (by omega)]
  omega

theorem norm_has (K : KeyType) {z : Int} (h : K.Has z) : K.norm z = .ok z := by
  unfold norm; rw [if_pos h]

/-- The wrapped value differs from the true one by a multiple of the number of values. -/
theorem norm_ok (K : KeyType) {z y : Int} (h : K.norm z = .ok y) :
    ∃ q, z = y + (K.hi - K.lo + 1) * q := by
  unfold norm at h
  split at h
  · cases h; exact ⟨0, by simp⟩
  · split at h
    · cases h
      refine ⟨(z - K.lo) / (K.hi - K.lo + 1), ?_⟩
      unfold wrap
      have := Int.emod_add_mul_ediv (z - K.lo) (K.hi - K.lo + 1)
      omega
    · cases h

/-- Two subtractions in the key type give the exact result when the final value fits. -/
theorem norm_sub (K : KeyType) {d sz k : Int} (h : K.norm d = .ok sz) (hk : K.Has (k - d)) :
    K.norm (k - sz) = .ok (k - d) := by
  obtain ⟨q, hq⟩ := K.norm_ok h
  by_cases hf : K.Has (k - sz)
  · rw [K.norm_has hf]
    have h1 := K.lo_le; have h2 := K.hi_pos
    obtain ⟨a, b⟩ := hf
    obtain ⟨c, e⟩ := hk
    have : K.wrap (k - sz) = k - d := K.wrap_eq ⟨c, e⟩ (q := q) (by omega)
    have h3 : K.wrap (k - sz) = k - sz := K.wrap_eq ⟨a, b⟩ (q := 0) (by simp)
    rw [← this, h3]
  · unfold norm
    rw [if_neg hf]
    split
    · rw [K.wrap_eq hk (q := q) (by omega)]
    · rename_i hw
      exfalso
      unfold norm at h
      split at h
      · cases h; exact hf hk
      · cases h

end KeyType

theorem subKeysK_exact (K : KeyType) {d sz : Int} (h : K.norm d = .ok sz) :
    ∀ {ns : List (Leaf V)}, (∀ n ∈ ns, K.Has (n.1 - d)) →
      subKeysK K sz ns = .ok (ns.map fun n => (n.1 - d, n.2))
  | [], _ => rfl
  | n :: t, hn => by
    unfold subKeysK
    rw [K.norm_sub h (hn n (by simp)), subKeysK_exact K h (fun m hm => hn m (by simp [hm]))]
    rfl

theorem shiftKeysLeftK_exact (K : KeyType) {d sz : Int} (h : K.norm d = .ok sz) (A B : List (Leaf V))
    (r : Leaf V) (hB : ∀ n ∈ B, K.Has (n.1 - d)) :
    shiftKeysLeftK K (A ++ (B ++ [r])) A.length sz = .ok (shiftKeysLeft (A ++ (B ++ [r])) A.length d) := by
  unfold shiftKeysLeftK shiftKeysLeft
  simp only [List.drop_left, List.dropLast_concat]
  rw [subKeysK_exact K h hB]
  rfl

section
variable [DecidableEq V]

/-- `shift_left` in the key type, once the length of the removed range is representable. -/
theorem shiftLeftK_exact (K : KeyType) {lo hi : Int} {dv : V} {ls : List (Leaf V)} (w : WF lo hi dv ls)
    (hlo : K.lo ≤ lo) (hhi : hi ≤ K.hi) {s e sz : Int} (hs : lo ≤ s) (hse : s < e) (he : e ≤ hi)
    (hn : K.norm (e - s) = .ok sz) (init : V) :
    shiftLeftLeavesK K ls init s e = shiftLeftLeaves ls init s e := by
  obtain ⟨P, X, Y, d⟩ := w.shSplit hs (by omega : s < hi) (by omega : s ≤ e)
  have hQ : ∀ n ∈ X ++ (Y ++ [(hi, dv)]), s ≤ n.1 := by
    intro n hn
    simp only [List.mem_append, List.mem_singleton] at hn
    rcases hn with h | h | h
    · exact (d.hX n h).1
    · have := d.hY n h; omega
    · subst h; simp; omega
  have hidx : (if lo = s then some 0 else insPos ls s 1) = some P.length := by
    by_cases hl : lo = s
    · rw [if_pos hl]
      have : P = [] := by
        cases P with
        | nil => rfl
        | cons p P =>
          have h1 := w.first
          rw [d.eq] at h1; simp at h1
          have := d.hP p (by simp); omega
      rw [this]; rfl
    · rw [if_neg hl, d.eq]
      apply insPos_eq _ _ _ _ _ d.hP hQ (by simp)
      cases P with
      | nil =>
        obtain ⟨v, X', h⟩ := d.h0 rfl
        have h1 := w.first
        rw [d.eq, h] at h1; simp at h1; omega
      | cons p P => simp
  have hend : K.norm (hi - sz) = .ok (hi - (e - s)) := K.norm_sub hn ⟨by omega, by omega⟩
  have hY : ∀ n ∈ Y, K.Has (n.1 - (e - s)) := by
    intro n hn
    have := d.hY n hn
    exact ⟨by omega, by omega⟩
  unfold shiftLeftLeavesK shiftLeftLeaves
  have c1 : ¬ s ≥ e := by omega
  have c2 : ¬ (s < lo ∨ e < lo) := by omega
  have c3 : ¬ (s > hi ∨ e > hi) := by omega
  simp only [bounds_eq w, if_neg c1, if_neg c2, if_neg c3, hidx, hn, Outcome.bind]
  cases X with
  | nil =>
    cases Y with
    | nil =>
      have hln : P.length = ls.length - 1 := by rw [d.eq]; simp
      rw [if_pos hln, if_pos hln]
      by_cases hh : hi ≤ e
      · rw [if_pos hh, if_pos hh]
      · rw [if_neg hh, if_neg hh, hend]
    | cons y Y =>
      have hln : ¬ (P.length = ls.length - 1) := by rw [d.eq]; simp
      have hnd : ls[P.length]? = some y := by rw [d.eq]; simp
      rw [if_neg hln, if_neg hln, hnd]
      simp only
      rw [if_pos (d.hY y (by simp)).1, if_pos (d.hY y (by simp)).1]
      have e1 : ls = P ++ (y :: Y ++ [(hi, dv)]) := by rw [d.eq]; simp
      rw [e1, shiftKeysLeftK_exact K hn P (y :: Y) (hi, dv) hY, hend]
  | cons x X =>
    have hln : ¬ (P.length = ls.length - 1) := by rw [d.eq]; simp
    have hnd : ls[P.length]? = some x := by rw [d.eq]; simp
    rw [if_neg hln, if_neg hln, hnd]
    simp only
    have hx := (d.hX x (by simp)).2
    rw [if_neg (by omega), if_neg (by omega)]
    have hd1 : ls.drop (P.length + 1) = X ++ Y ++ [(hi, dv)] := by
      rw [← List.drop_drop, d.eq, List.drop_left]; simp
    have hmid : (ls.drop (P.length + 1)).dropLast.takeWhile (fun n => decide (n.1 ≤ e)) = X := by
      rw [hd1, List.dropLast_concat, List.takeWhile_append_of_pos]
      · cases Y with
        | nil => simp
        | cons y Y => have := d.hY y (by simp); rw [List.takeWhile_cons_of_neg] <;> simp; omega
      · intro n hn; have := d.hX n (by simp [hn]); simp; omega
    have hrest : ls.drop (P.length + 1 + X.length) = Y ++ [(hi, dv)] := by
      rw [← List.drop_drop, hd1, List.append_assoc, List.drop_left]
    simp only [hmid, hrest]
    rw [shiftKeysLeftK_exact K hn _ Y (hi, dv) hY, hend]

/-- When the length is not representable in a type without wrap-around, the call overflows. -/
theorem shiftLeftK_ub (K : KeyType) {lo hi : Int} {dv : V} {ls : List (Leaf V)} (w : WF lo hi dv ls)
    {s e : Int} (hs : lo ≤ s) (hse : s < e) (he : e ≤ hi) (hn : K.norm (e - s) = .ub) (init : V) :
    shiftLeftLeavesK K ls init s e = .ub := by
  have hidx : ∃ i, (if lo = s then some 0 else insPos ls s 1) = some i := by
    by_cases hl : lo = s
    · exact ⟨0, if_pos hl⟩
    · obtain ⟨P, Q, e1, hP, hQ⟩ := sorted_split w.sorted s
      refine ⟨P.length, ?_⟩
      rw [if_neg hl, e1]
      apply insPos_eq _ _ _ _ _ hP hQ
      · rintro rfl
        have := w.mem_last
        rw [e1] at this
        have := hP _ (by simpa using this); simp at this; omega
      · cases P with
        | nil =>
          obtain ⟨v, t, e2⟩ := w.exists_cons
          rw [e2] at e1; simp at e1
          have := hQ (lo, v) (by rw [← e1]; simp); simp at this; omega
        | cons p P => simp
  obtain ⟨i, hidx⟩ := hidx
  unfold shiftLeftLeavesK
  rw [bounds_eq w]
  rw [if_neg (by omega)]
  simp only
  rw [if_neg (by omega), if_neg (by omega)]
  simp only [hidx, hn, Outcome.bind]

end

/-- The first moved node pushed to or past the end, if any, still has a representable key. -/
def FirstFits (K : KeyType) (hi d : Int) (B : List (Leaf V)) : Prop :=
  ∀ n, B.find? (fun n => decide (hi ≤ n.1 + d)) = some n → n.1 + d ≤ K.hi

theorem shiftKeysRightK_exact (K : KeyType) {hi d : Int} (hhi : hi ≤ K.hi) (hd : 0 < d) :
    ∀ {B : List (Leaf V)}, (∀ n ∈ B, K.lo ≤ n.1) → FirstFits K hi d B →
      shiftKeysRightK K hi d B = .ok (shiftKeysRight B hi d)
  | [], _, _ => rfl
  | n :: t, hB, hf => by
    have h0 := hB n (by simp)
    unfold shiftKeysRightK shiftKeysRight
    by_cases hc : n.1 + d < hi
    · have hn : ¬ hi ≤ n.1 + d := by omega
      rw [K.norm_has ⟨by omega, by omega⟩, if_pos hc]
      simp only [Outcome.bind]
      rw [if_pos hc, shiftKeysRightK_exact K hhi hd (fun m hm => hB m (by simp [hm]))]
      · rfl
      · intro m hm
        exact hf m (by simp [hn, hm])
    · have := hf n (by simp [show hi ≤ n.1 + d by omega])
      rw [K.norm_has ⟨by omega, by omega⟩, if_neg hc]
      simp only [Outcome.bind]
      rw [if_neg hc]

/-- Otherwise the node's key overflows: undefined, or it wraps below the end and is kept. -/
theorem shiftKeysRightK_wrong (K : KeyType) {hi d : Int} (hhi : hi ≤ K.hi) (hd : 0 < d) (hdK : d ≤ K.hi) :
    ∀ {B : List (Leaf V)}, (∀ n ∈ B, K.lo ≤ n.1 ∧ n.1 < hi) → ¬ FirstFits K hi d B →
      shiftKeysRightK K hi d B ≠ .ok (shiftKeysRight B hi d)
  | [], _, hf => by exfalso; exact hf (fun n hn => by simp at hn)
  | n :: t, hB, hf => by
    have h0 := hB n (by simp)
    unfold shiftKeysRightK shiftKeysRight
    by_cases hc : n.1 + d < hi
    · have hn : ¬ hi ≤ n.1 + d := by omega
      rw [K.norm_has ⟨by omega, by omega⟩, if_pos hc]
      simp only [Outcome.bind]
      rw [if_pos hc]
      have ih := shiftKeysRightK_wrong K hhi hd hdK (B := t) (fun m hm => hB m (List.mem_cons_of_mem _ hm))
        (fun h => hf (fun m hm => h m (by simpa [hn] using hm)))
      intro h
      cases hk : shiftKeysRightK K hi d t with
      | ok m =>
        rw [hk] at h ih
        simp only [Outcome.map, Outcome.ok.injEq, List.cons.injEq, true_and] at h
        exact ih (by rw [h])
      | err x => rw [hk] at h; cases h
      | ub => rw [hk] at h; cases h
    · have hbig : ¬ n.1 + d ≤ K.hi := by
        intro h
        apply hf
        intro m hm
        simp only [List.find?_cons, show hi ≤ n.1 + d by omega, decide_true, Option.some.injEq] at hm
        rw [← hm]; exact h
      rw [if_neg hc]
      unfold KeyType.norm
      rw [if_neg (fun h => hbig h.2)]
      have h1 := K.lo_le
      by_cases hw : K.wraps = true
      · rw [if_pos hw, K.wrap_eq (y := n.1 + d - (K.hi - K.lo + 1)) (q := 1) ⟨by omega, by omega⟩ (by omega)]
        simp only [Outcome.bind]
        rw [if_pos (by omega)]
        intro h
        cases hk : shiftKeysRightK K hi d t <;> rw [hk] at h <;> simp [Outcome.map] at h
      · rw [if_neg hw]; simp [Outcome.bind]

theorem shiftRightFromK_nf (K : KeyType) (A B : List (Leaf V)) (r : Leaf V) (hi d : Int) :
    shiftRightFromK K (A ++ (B ++ [r])) A.length hi d =
      (shiftKeysRightK K hi d B).map fun m => A ++ m ++ [r] := by
  unfold shiftRightFromK
  simp

/-- A border that `shift_right(pos, _, skip)` moves: a border strictly inside the container,
at `pos` or after it (after it only, if `skip`). -/
def Moved (lo hi pos : Int) (skip : Bool) (k : Int) : Prop :=
  lo < k ∧ k < hi ∧ (pos < k ∨ k = pos ∧ skip = false)

instance (lo hi pos : Int) (skip : Bool) (k : Int) : Decidable (Moved lo hi pos skip k) := by
  unfold Moved; infer_instance

theorem firstFits_iff (K : KeyType) {lo hi pos size : Int} {skip : Bool} {dv : V} {A B : List (Leaf V)}
    (hA : ∀ n ∈ A, ¬ Moved lo hi pos skip n.1) (hB : ∀ n ∈ B, Moved lo hi pos skip n.1) :
    FirstFits K hi size B ↔
      ∀ k, ((A ++ (B ++ [(hi, dv)])).map (·.1)).find?
        (fun k => decide (Moved lo hi pos skip k ∧ hi ≤ k + size)) = some k → k + size ≤ K.hi := by
  have hA' : (A.map (·.1)).find? (fun k => decide (Moved lo hi pos skip k ∧ hi ≤ k + size)) = none := by
    rw [List.find?_eq_none]
    intro k hk
    obtain ⟨n, hn, rfl⟩ := List.mem_map.1 hk
    simp only [decide_eq_true_eq, not_and]
    exact fun h => absurd h (hA n hn)
  have hB' : (B.map (·.1)).find? (fun k => decide (Moved lo hi pos skip k ∧ hi ≤ k + size)) =
      (B.find? (fun n => decide (hi ≤ n.1 + size))).map (·.1) := by
    clear hA hA'
    induction B with
    | nil => rfl
    | cons b t ih =>
      have hb := hB b (by simp)
      simp only [List.map_cons, List.find?_cons, hb, true_and]
      split
      · rfl
      · exact ih (fun n hn => hB n (by simp [hn]))
  have hl : ¬ (Moved lo hi pos skip hi ∧ hi ≤ hi + size) := fun h => by have := h.1.2.1; omega
  rw [List.map_append, List.map_append, List.find?_append, List.find?_append, hA', hB', Option.none_or]
  simp only [List.map_cons, List.map_nil, List.find?_cons, hl, decide_false, List.find?_nil, Option.or_none]
  unfold FirstFits
  constructor
  · intro h k hk
    obtain ⟨n, hn, rfl⟩ := Option.map_eq_some_iff.1 hk
    exact h n hn
  · intro h n hn
    exact h n.1 (by rw [hn]; rfl)

section
variable [DecidableEq V]

/-- Where `shift_right` starts moving nodes: exact and fixed-width versions side by side. -/
theorem shiftRight_both (K : KeyType) {lo hi : Int} {dv : V} {ls : List (Leaf V)} (w : WF lo hi dv ls)
    {p n : Int} (hn : 0 < n) (h1 : lo ≤ p) (h2 : p < hi) (init : V) (skip : Bool)
    (hlo : K.lo ≤ lo) (hhi : hi ≤ K.hi) (hw : K.wraps = true ∨ hi - lo ≤ K.hi) :
    ∃ A B, ls = A ++ (B ++ [(hi, dv)]) ∧ (∀ m ∈ A, ¬ Moved lo hi p skip m.1) ∧
      (∀ m ∈ B, Moved lo hi p skip m.1) ∧
      ∃ A' : List (Leaf V), shiftRightLeaves ls init p n skip = .ok (A' ++ shiftKeysRight B hi n ++ [(hi, dv)], false) ∧
        shiftRightLeavesK K ls init p n skip =
          (shiftKeysRightK K hi n B).map fun m => (A' ++ m ++ [(hi, dv)], false) := by
  unfold shiftRightLeaves shiftRightLeavesK
  have c1 : ¬ n ≤ 0 := by omega
  have c2 : ¬ (p < lo ∨ hi ≤ p) := by omega
  simp only [bounds_eq w, if_neg c1, if_neg c2]
  by_cases hlp : lo = p
  · subst hlp
    rw [if_pos rfl, if_pos rfl]
    obtain ⟨v, b, t, rfl⟩ := w.two
    have hl := w.lt_hi
    obtain ⟨T, hT⟩ : ∃ T, b :: t = T ++ [(hi, dv)] := by
      have h3 := w.eq_snoc
      rw [List.dropLast_cons_of_ne_nil (by simp)] at h3
      simp only [List.cons_append, List.cons.injEq, true_and] at h3
      exact ⟨_, h3⟩
    have hTm : ∀ m ∈ T, Moved lo hi lo skip m.1 := by
      intro m hm
      have h3 := (List.pairwise_cons.1 w.sorted).1 m (by rw [hT]; simp [hm])
      have h4 := hl m (by rw [List.dropLast_cons_of_ne_nil (by simp), hT]; simp [hm])
      exact ⟨h3, h4, Or.inl h3⟩
    have hf1 : shiftRightFrom (b :: t) 0 hi n = shiftKeysRight T hi n ++ [(hi, dv)] := by
      have := shiftRightFrom_nf [] T hi n dv
      rw [hT]; simpa [srN] using this
    have hf2 : shiftRightFromK K (b :: t) 0 hi n = (shiftKeysRightK K hi n T).map fun m => m ++ [(hi, dv)] := by
      have := shiftRightFromK_nf K [] T (hi, dv) hi n
      rw [hT]; simpa using this
    have hdiff : K.diff hi lo = .ok (hi - lo) := by
      unfold KeyType.diff
      split
      · rfl
      · rename_i hp
        apply K.norm_has
        have := w.lt
        have := K.lo_le
        refine ⟨by omega, ?_⟩
        rcases hw with hw | hw
        · rcases K.kinds hw with h | h
          · exact absurd h hp
          · omega
        · exact hw
    simp only [hf1, hf2]
    refine ⟨[(lo, v)], T, by rw [hT]; simp, ?_, hTm, ?_⟩
    · intro m hm
      simp only [List.mem_singleton] at hm
      subst hm
      intro h; have := h.1; simp only at this; omega
    by_cases hc : v ≠ init ∧ skip = false
    · rw [if_pos hc]
      by_cases hsz : n < hi - lo
      · rw [if_pos hsz]
        refine ⟨[(lo, init), (lo + n, v)], by simp, ?_⟩
        cases hk : shiftKeysRightK K hi n T with
        | ok m =>
          simp only [Outcome.map, Outcome.bind, hdiff, if_pos hc, if_pos hsz]
          rw [K.norm_has ⟨by omega, by omega⟩]
          simp
        | err x => rfl
        | ub => rfl
      · rw [if_neg hsz]
        refine ⟨[(lo, init)], by simp, ?_⟩
        cases hk : shiftKeysRightK K hi n T with
        | ok m =>
          simp only [Outcome.map, Outcome.bind, hdiff, if_pos hc, if_neg hsz]
          simp
        | err x => rfl
        | ub => rfl
    · rw [if_neg hc]
      refine ⟨[(lo, v)], by simp, ?_⟩
      cases hk : shiftKeysRightK K hi n T with
      | ok m => simp only [Outcome.map, Outcome.bind, if_neg hc]; simp
      | err x => rfl
      | ub => rfl
  · rw [if_neg hlp, if_neg hlp]
    obtain ⟨P, Q, e, hP, hQ⟩ := sorted_split w.sorted p
    have hPne : P ≠ [] := by
      rintro rfl
      obtain ⟨v, t, e2⟩ := w.exists_cons
      rw [e2] at e; simp at e
      have := hQ (lo, v) (by rw [← e]; simp); simp at this; omega
    have hQne : Q ≠ [] := by
      rintro rfl
      have := w.mem_last
      rw [e] at this
      have := hP _ (by simpa using this); simp at this; omega
    have hPl : 1 ≤ P.length := List.length_pos_iff.2 hPne
    rw [show insPos ls p 1 = some P.length by rw [e]; exact insPos_eq P Q p 1 hPl hP hQ hQne]
    simp only
    have hQl : Q = Q.dropLast ++ [(hi, dv)] := by
      have h3 := w.last
      rw [e, List.getLast?_append_of_ne_nil _ hQne] at h3
      exact (List.dropLast_append_getLast? (l := Q) (hi, dv) h3).symm
    obtain ⟨Q', hQ'⟩ : ∃ Q', Q = Q' ++ [(hi, dv)] := ⟨_, hQl⟩
    subst hQ'
    have hQ2 : ∀ m ∈ Q', p ≤ m.1 ∧ m.1 < hi := fun m hm =>
      ⟨hQ m (by simp [hm]), w.lt_hi m (by rw [e, ← List.append_assoc, List.dropLast_concat]; simp [hm])⟩
    have hPm : ∀ m ∈ P, ¬ Moved lo hi p skip m.1 := by
      intro m hm h
      have := hP m hm
      rcases h.2.2 with h | h <;> omega
    have fin : ∀ (A B : List (Leaf V)), ls = A ++ (B ++ [(hi, dv)]) →
        (∃ A' : List (Leaf V),
          (Outcome.ok (shiftRightFrom ls A.length hi n, false)) =
            .ok (A' ++ shiftKeysRight B hi n ++ [(hi, dv)], false) ∧
          ((shiftRightFromK K ls A.length hi n).map fun r => (r, false)) =
            (shiftKeysRightK K hi n B).map fun m => (A' ++ m ++ [(hi, dv)], false)) := by
      intro A B e3
      refine ⟨A, ?_, ?_⟩
      · rw [e3, shiftRightFrom_nf]; simp [srN]
      · rw [e3, shiftRightFromK_nf]
        cases shiftKeysRightK K hi n B <;> rfl
    cases Q' with
    | nil =>
      have hg : ls[P.length]? = some (hi, dv) := by rw [e]; simp
      rw [hg]
      simp only
      rw [if_neg (fun h : skip = true ∧ hi = p => by have := h.2; omega)]
      have hln : P.length < ls.length := by rw [e]; simp
      rw [if_pos hln, if_pos hln]
      exact ⟨P, [], e, hPm, by simp, fin P [] e⟩
    | cons q Q' =>
      have hg : ls[P.length]? = some q := by rw [e]; simp
      have hs := w.sorted
      rw [e] at hs
      have hs2 := (List.pairwise_append.1 hs).2.1
      have hgt : ∀ m ∈ Q', q.1 < m.1 := fun m hm => (List.pairwise_cons.1 hs2).1 m (by simp [hm])
      have hq := hQ2 q (by simp)
      rw [hg]
      simp only
      by_cases hsk : skip = true ∧ q.1 = p
      · rw [if_pos hsk]
        have hln : P.length + 1 < ls.length := by rw [e]; simp
        rw [if_pos hln, if_pos hln]
        have e3 : ls = (P ++ [q]) ++ (Q' ++ [(hi, dv)]) := by rw [e]; simp
        have f := fin (P ++ [q]) Q' e3
        rw [List.length_append, List.length_singleton] at f
        refine ⟨P ++ [q], Q', e3, ?_, ?_, f⟩
        · intro m hm h
          rcases List.mem_append.1 hm with h' | h'
          · exact hPm m h' h
          · simp only [List.mem_singleton] at h'
            subst h'
            rcases h.2.2 with h | h
            · omega
            · rw [hsk.1] at h; exact absurd h.2 (by simp)
        · intro m hm
          have h3 := hgt m hm
          exact ⟨by omega, (hQ2 m (by simp [hm])).2, Or.inl (by omega)⟩
      · rw [if_neg hsk]
        have hln : P.length < ls.length := by rw [e]; simp
        rw [if_pos hln, if_pos hln]
        refine ⟨P, q :: Q', e, hPm, ?_, fin P (q :: Q') e⟩
        intro m hm
        have h3 := hQ2 m hm
        refine ⟨by omega, h3.2, ?_⟩
        rcases List.mem_cons.1 hm with rfl | hm
        · by_cases hp : m.1 = p
          · exact Or.inr ⟨hp, by cases skip with
              | false => rfl
              | true => exact absurd ⟨rfl, hp⟩ hsk⟩
          · exact Or.inl (by omega)
        · have := hgt m hm; exact Or.inl (by omega)

end

end Mdds.FST
