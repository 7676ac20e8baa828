import Verif.Common
/-!
Model of the block position adjustment kernels of multi_type_vector
(`include/mdds/multi_type_vector/soa/block_util.hpp` 21-592 and
`include/mdds/multi_type_vector/aos/block_util.hpp` 15-213).

A position is a 64 bit unsigned word and `delta` is added modulo 2^64 (a
negative delta is its two's complement), so both are `BitVec 64`.  The array of
positions is a list.  Every access outside the array is undefined behaviour.

Simplifications: `int64_t` indices are natural numbers (array lengths stay below
2^63); `#pragma omp parallel for` is modelled as the sequential loop (the
iterations touch disjoint elements); in the array-of-structures variant
`blocks[i].position` is element `i` of the list.
-/
namespace Mdds.Mtv.Kernels
open Mdds

abbrev Word := BitVec 64

/-- `positions[i] += delta`; out of range is undefined behaviour. -/
def addAt (ps : List Word) (i : Nat) (delta : Word) : Outcome (List Word) :=
  match ps[i]? with
  | some x => .ok (ps.set i (x + delta))
  | none => .ub

/-- A sequence of `positions[base + k] += delta` statements, one per offset `k`
(the body of an unrolled loop). -/
def addOffsets (ps : List Word) (base : Nat) (delta : Word) : List Nat → Outcome (List Word)
  | [] => .ok ps
  | k :: ks => do
      let ps' ← addAt ps (base + k) delta
      addOffsets ps' base delta ks

/-- One SIMD statement `store(dst, add(load(dst), right))` with
`dst = &positions[i]`, `w` 64-bit lanes (`_mm_add_epi64` w = 2, block_util.hpp
252-253; `_mm256_add_epi64` w = 4, 478-479): lanes are loaded together, added and
stored together. -/
def simdAdd (ps : List Word) (i w : Nat) (delta : Word) : Outcome (List Word) :=
  if i + w ≤ ps.length then
    .ok (ps.take i ++ ((ps.drop i).take w).map (· + delta) ++ ps.drop (i + w))
  else .ub

/-- A sequence of SIMD statements at `base + k` for each offset `k`. -/
def simdOffsets (ps : List Word) (base w : Nat) (delta : Word) : List Nat → Outcome (List Word)
  | [] => .ok ps
  | k :: ks => do
      let ps' ← simdAdd ps (base + k) w delta
      simdOffsets ps' base w delta ks

/-- `for (i = start; i < stop; i += step) body(i)`, `fuel` bounding the number of
iterations (`stop - start` always suffices for `step > 0`); running out of fuel
is reported as `ub`, so a theorem about the result also proves termination. -/
def loop (body : List Word → Nat → Outcome (List Word)) (step stop : Nat) :
    Nat → Nat → List Word → Outcome (List Word)
  | 0, i, ps => if i < stop then .ub else .ok ps
  | fuel + 1, i, ps =>
    if i < stop then do
      let ps' ← body ps i
      loop body step stop fuel (i + step) ps'
    else .ok ps

/-- Common frame of the unrolled kernels (block_util.hpp 52-78, 84-114, 120-158,
164-218, 264-304, ...): `mask` is the constant of `len & mask`, `step` the loop
increment, `body` the unrolled statements; the remainder is a plain loop. -/
def unrolled (mask step : Nat) (body : List Word → Nat → Outcome (List Word))
    (delta : Word) (ps : List Word) (start : Nat) : Outcome (List Word) :=
  let n := ps.length
  if start ≥ n then .ok ps
  else
    let len := n - start
    let rem := len &&& mask
    let len := len - rem
    let len := len + start
    do
      let ps ← loop body step len n start ps
      let rem := rem + len
      loop (fun ps i => addAt ps i delta) 1 rem n len ps

/-- The unrolling factors (`lu_factor_t`, `include/mdds/global.hpp`). -/
inductive Factor where
  | none | lu4 | lu8 | lu16 | lu32
  | sse2 | sse2lu4 | sse2lu8 | sse2lu16
  | avx2 | avx2lu4 | avx2lu8
  deriving DecidableEq, Repr

/-- `adjust_block_positions<Blks, F>::operator()` for each factor
(soa/block_util.hpp 31-47 none, 49-79 lu4, 81-115 lu8, 117-159 lu16,
161-219 lu32, 223-259 sse2_x64, 261-305 sse2_x64_lu4, 307-363 sse2_x64_lu8,
365-445 sse2_x64_lu16, 451-486 avx2_x64, 488-532 avx2_x64_lu4,
534-590 avx2_x64_lu8; aos/block_util.hpp 24-40, 42-72, 74-108, 110-152, 154-212
for none ... lu32). The offsets are transcribed literally. -/
def adjust (f : Factor) (delta : Word) (ps : List Word) (start : Nat) : Outcome (List Word) :=
  match f with
  | .none =>
    let n := ps.length
    if start ≥ n then .ok ps
    else loop (fun ps i => addAt ps i delta) 1 n n start ps
  | .lu4 => unrolled 3 4 (fun ps i => addOffsets ps i delta [0, 1, 2, 3]) delta ps start
  | .lu8 => unrolled 7 8 (fun ps i => addOffsets ps i delta [0, 1, 2, 3, 4, 5, 6, 7]) delta ps start
  | .lu16 => unrolled 15 16 (fun ps i => addOffsets ps i delta
      [0, 1, 2, 3, 4, 5, 6, 7, 8, 9, 10, 11, 12, 13, 14, 15]) delta ps start
  | .lu32 => unrolled 31 32 (fun ps i => addOffsets ps i delta
      [0, 1, 2, 3, 4, 5, 6, 7, 8, 9, 10, 11, 12, 13, 14, 15,
       16, 17, 18, 19, 20, 21, 22, 23, 24, 25, 26, 27, 28, 29, 30, 31]) delta ps start
  | .sse2 =>
    let n := ps.length
    if start ≥ n then .ok ps
    else
      let len := n - start
      let odd := len &&& 1 ≠ 0
      let len := if odd then len - 1 else len
      let len := len + start
      do
        let ps ← loop (fun ps i => simdAdd ps i 2 delta) 2 len n start ps
        if odd then addAt ps len delta else .ok ps
  | .sse2lu4 => unrolled 7 8 (fun ps i => simdOffsets ps i 2 delta [0, 2, 4, 6]) delta ps start
  | .sse2lu8 => unrolled 15 16 (fun ps i => simdOffsets ps i 2 delta
      [0, 2, 4, 6, 8, 10, 12, 14]) delta ps start
  | .sse2lu16 => unrolled 31 32 (fun ps i => simdOffsets ps i 2 delta
      [0, 2, 4, 6, 8, 10, 12, 14, 16, 18, 20, 22, 24, 26, 28, 30]) delta ps start
  | .avx2 => unrolled 3 4 (fun ps i => simdAdd ps i 4 delta) delta ps start
  | .avx2lu4 => unrolled 15 16 (fun ps i => simdOffsets ps i 4 delta [0, 4, 8, 12]) delta ps start
  | .avx2lu8 => unrolled 31 32 (fun ps i => simdOffsets ps i 4 delta
      [0, 4, 8, 12, 16, 20, 24, 28]) delta ps start

/-! ### Lemmas -/

/-- `addSeg ps a b d`: `d` added to exactly the elements with index in `[a, b)`. -/
def addSeg (ps : List Word) (a b : Nat) (d : Word) : List Word :=
  ps.mapIdx (fun i x => if a ≤ i ∧ i < b then x + d else x)

@[simp] theorem addSeg_length (ps : List Word) (a b d) : (addSeg ps a b d).length = ps.length := by
  simp [addSeg]

theorem addSeg_get (ps : List Word) (a b d) (i : Nat) :
    (addSeg ps a b d)[i]? = (ps[i]?).map (fun x => if a ≤ i ∧ i < b then x + d else x) := by
  simp [addSeg, List.getElem?_mapIdx]

theorem addSeg_refl (ps : List Word) (a d) : addSeg ps a a d = ps := by
  apply List.ext_getElem?
  intro i
  rw [addSeg_get]
  have : ¬ (a ≤ i ∧ i < a) := by omega
  simp [this]

theorem addSeg_comp (ps : List Word) (a b c d) (h1 : a ≤ b) (h2 : b ≤ c) :
    addSeg (addSeg ps a b d) b c d = addSeg ps a c d := by
  apply List.ext_getElem?
  intro i
  simp only [addSeg_get, Option.map_map]
  congr 1
  funext x
  simp only [Function.comp]
  by_cases h3 : b ≤ i
  · have : ¬ (a ≤ i ∧ i < b) := by omega
    have e : (a ≤ i ∧ i < c) ↔ (b ≤ i ∧ i < c) := by omega
    simp only [this, e, if_false]
  · have : ¬ (b ≤ i ∧ i < c) := by omega
    have e : (a ≤ i ∧ i < c) ↔ (a ≤ i ∧ i < b) := by omega
    simp only [this, e, if_false]

theorem addAt_eq (ps : List Word) (i d) (h : i < ps.length) :
    addAt ps i d = .ok (addSeg ps i (i + 1) d) := by
  simp only [addAt, List.getElem?_eq_getElem h]
  congr 1
  apply List.ext_getElem?
  intro j
  rw [addSeg_get, List.getElem?_set]
  by_cases hj : i = j
  · subst hj
    simp [h]
  · have : ¬ (i ≤ j ∧ j < i + 1) := by omega
    simp [hj, this]

theorem simdAdd_eq (ps : List Word) (i w d) (h : i + w ≤ ps.length) :
    simdAdd ps i w d = .ok (addSeg ps i (i + w) d) := by
  simp only [simdAdd, if_pos h]
  congr 1
  apply List.ext_getElem?
  intro j
  rw [addSeg_get]
  have l1 : (List.take i ps).length = i := by simp; omega
  have l2 : (((ps.drop i).take w).map (· + d)).length = w := by simp; omega
  rw [List.append_assoc]
  by_cases h1 : j < i
  · rw [List.getElem?_append_left (by omega), List.getElem?_take, if_pos h1]
    have : ¬ (i ≤ j ∧ j < i + w) := by omega
    simp [this]
  · rw [List.getElem?_append_right (by omega), l1]
    by_cases h2 : j < i + w
    · rw [List.getElem?_append_left (by omega), List.getElem?_map, List.getElem?_take,
        if_pos (by omega), List.getElem?_drop]
      have e : i + (j - i) = j := by omega
      have : (i ≤ j ∧ j < i + w) := by omega
      simp [this, e]
    · rw [List.getElem?_append_right (by omega), l2, List.getElem?_drop]
      have e : i + w + (j - i - w) = j := by omega
      have : ¬ (i ≤ j ∧ j < i + w) := by omega
      simp [this, e]

/-- A run of consecutive offsets `k, k+1, ...`. -/
theorem addOffsets_eq (d : Word) (base : Nat) : ∀ (m k : Nat) (ps : List Word),
    base + k + m ≤ ps.length →
    addOffsets ps base d (List.range' k m) = .ok (addSeg ps (base + k) (base + k + m) d)
  | 0, k, ps, _ => by simp [addOffsets, addSeg_refl]
  | m + 1, k, ps, h => by
    rw [List.range'_succ]
    simp only [addOffsets]
    rw [addAt_eq _ _ _ (by omega)]
    simp only [Outcome.bind_ok]
    rw [addOffsets_eq d base m (k + 1) _ (by simp; omega)]
    congr 1
    have := addSeg_comp ps (base + k) (base + k + 1) (base + k + (m + 1)) d (by omega) (by omega)
    rw [← this]
    congr 1 <;> omega

theorem simdOffsets_eq (d : Word) (base w : Nat) : ∀ (m k : Nat) (ps : List Word),
    base + k + m * w ≤ ps.length →
    simdOffsets ps base w d (List.range' k m w) = .ok (addSeg ps (base + k) (base + k + m * w) d)
  | 0, k, ps, _ => by simp [simdOffsets, addSeg_refl]
  | m + 1, k, ps, h => by
    have hm : (m + 1) * w = m * w + w := by rw [Nat.add_mul]; simp
    rw [List.range'_succ]
    simp only [simdOffsets]
    rw [simdAdd_eq _ _ _ _ (by omega)]
    simp only [Outcome.bind_ok]
    rw [simdOffsets_eq d base w m (k + w) _ (by simp; omega)]
    congr 1
    have := addSeg_comp ps (base + k) (base + k + w) (base + k + (m + 1) * w) d (by omega) (by omega)
    rw [← this]
    congr 1 <;> omega

/-- A loop whose body adds `d` to exactly `[i, i + step)`, over a range whose
length is a multiple of `step`. -/
theorem loop_eq (body : List Word → Nat → Outcome (List Word)) (step : Nat) (d : Word)
    (hs : 0 < step)
    (hb : ∀ (ps : List Word) (i : Nat), i + step ≤ ps.length → body ps i = .ok (addSeg ps i (i + step) d)) :
    ∀ (c fuel i stop : Nat) (ps : List Word), stop = i + c * step → c ≤ fuel → stop ≤ ps.length →
      loop body step stop fuel i ps = .ok (addSeg ps i stop d)
  | 0, fuel, i, stop, ps, he, _, _ => by
    have : stop = i := by simpa using he
    subst this
    cases fuel <;> simp [loop, addSeg_refl]
  | c + 1, 0, i, stop, ps, he, hf, hl => by omega
  | c + 1, fuel + 1, i, stop, ps, he, hf, hl => by
    have hm : (c + 1) * step = c * step + step := by rw [Nat.add_mul]; simp
    have hlt : i < stop := by omega
    simp only [loop, if_pos hlt]
    rw [hb ps i (by omega)]
    simp only [Outcome.bind_ok]
    rw [loop_eq body step d hs hb c fuel (i + step) stop _ (by omega) (by omega) (by simpa using hl)]
    congr 1
    exact addSeg_comp ps i (i + step) stop d (by omega) (by omega)

theorem unrolled_eq (body : List Word → Nat → Outcome (List Word)) (k : Nat) (d : Word)
    (hb : ∀ (ps : List Word) (i : Nat), i + 2 ^ k ≤ ps.length →
      body ps i = .ok (addSeg ps i (i + 2 ^ k) d))
    (ps : List Word) (start : Nat) :
    unrolled (2 ^ k - 1) (2 ^ k) body d ps start = .ok (addSeg ps start ps.length d) := by
  have hp : 0 < 2 ^ k := Nat.two_pow_pos k
  unfold unrolled
  simp only
  by_cases h : start ≥ ps.length
  · rw [if_pos h]
    congr 1
    apply List.ext_getElem?
    intro i
    rw [addSeg_get]
    have : ¬ (start ≤ i ∧ i < ps.length) := by omega
    simp [this]
  · rw [if_neg h, Nat.and_two_pow_sub_one_eq_mod]
    have hdm := Nat.div_add_mod (ps.length - start) (2 ^ k)
    have hml := Nat.mod_lt (ps.length - start) hp
    have hcl : (ps.length - start) / 2 ^ k ≤ ps.length - start := Nat.div_le_self _ _
    generalize (ps.length - start) / 2 ^ k = c at *
    generalize (ps.length - start) % 2 ^ k = r at *
    have hc : c * 2 ^ k = 2 ^ k * c := Nat.mul_comm _ _
    rw [loop_eq body (2 ^ k) d hp hb c ps.length start _ ps (by omega) (by omega) (by omega)]
    simp only [Outcome.bind_ok]
    rw [loop_eq (fun ps i => addAt ps i d) 1 d (by omega)
      (fun ps i h => addAt_eq ps i d (by omega)) r ps.length _ _ _ (by omega) (by omega)
      (by simp; omega)]
    congr 1
    rw [addSeg_comp _ _ _ _ _ (by omega) (by omega)]
    congr 1
    omega

theorem addSeg_eq_spec (ps : List Word) (start : Nat) (d : Word) :
    addSeg ps start ps.length d = ps.take start ++ (ps.drop start).map (· + d) := by
  apply List.ext_getElem?
  intro i
  rw [addSeg_get, List.getElem?_append, List.getElem?_take]
  by_cases h : i < start
  · have hn : ¬ (start ≤ i ∧ i < ps.length) := by omega
    by_cases hl : i < ps.length
    · rw [if_pos (by simp; omega), if_pos h]; simp [hn]
    · rw [if_neg (by simp; omega)]
      rw [List.getElem?_eq_none (by omega), List.getElem?_eq_none (by simp; omega)]; rfl
  · rw [if_neg (by simp; omega), List.getElem?_map, List.getElem?_drop]
    by_cases hl : i < ps.length
    · have hy : (start ≤ i ∧ i < ps.length) := by omega
      have e : start + (i - (List.take start ps).length) = i := by simp; omega
      rw [e]; simp [hy]
    · rw [List.getElem?_eq_none (by omega), List.getElem?_eq_none (by simp; omega)]; rfl

/-! ### Properties -/

/-- **C39.** Every unrolling factor's kernel, for every array, start index and
delta, never touches memory outside the array, terminates, leaves the first
`start` positions alone and adds `delta` to every other one. -/
theorem adjust_spec (f : Factor) (delta : Word) (ps : List Word) (start : Nat) :
    adjust f delta ps start = .ok (ps.take start ++ (ps.drop start).map (· + delta)) := by
  rw [← addSeg_eq_spec]
  have stop : start ≥ ps.length → ps = addSeg ps start ps.length delta := by
    intro h
    rw [addSeg_eq_spec, List.take_of_length_le h, List.drop_of_length_le h]; simp
  cases f
  case none =>
    simp only [adjust]
    by_cases h : start ≥ ps.length
    · rw [if_pos h, ← stop h]
    · rw [if_neg h]
      exact loop_eq _ 1 delta (by omega) (fun ps i h => addAt_eq ps i delta (by omega))
        (ps.length - start) _ _ _ _ (by omega) (by omega) (by omega)
  case lu4 =>
    exact unrolled_eq _ 2 delta (fun ps i h => addOffsets_eq delta i 4 0 ps (by simpa using h)) ps start
  case lu8 =>
    exact unrolled_eq _ 3 delta (fun ps i h => addOffsets_eq delta i 8 0 ps (by simpa using h)) ps start
  case lu16 =>
    exact unrolled_eq _ 4 delta (fun ps i h => addOffsets_eq delta i 16 0 ps (by simpa using h)) ps start
  case lu32 =>
    exact unrolled_eq _ 5 delta (fun ps i h => addOffsets_eq delta i 32 0 ps (by simpa using h)) ps start
  case sse2 =>
    simp only [adjust]
    by_cases h : start ≥ ps.length
    · rw [if_pos h, ← stop h]
    · rw [if_neg h]
      have hm : (ps.length - start) &&& 1 = (ps.length - start) % 2 := Nat.and_one_is_mod _
      simp only [hm]
      have hb : ∀ (ps : List Word) (i : Nat), i + 2 ≤ ps.length →
          simdAdd ps i 2 delta = .ok (addSeg ps i (i + 2) delta) :=
        fun ps i h => simdAdd_eq ps i 2 delta h
      have hdm := Nat.div_add_mod (ps.length - start) 2
      generalize hc : (ps.length - start) / 2 = c at *
      rcases Nat.mod_two_eq_zero_or_one (ps.length - start) with h0 | h0
      · rw [h0] at hdm
        simp only [h0]
        simp only [ne_eq, not_true_eq_false, if_false]
        rw [loop_eq (fun ps i => simdAdd ps i 2 delta) 2 delta (by omega) hb c ps.length start _ ps
          (by omega) (by omega) (by omega)]
        simp only [Outcome.bind_ok]
        congr 2; omega
      · rw [h0] at hdm
        simp only [h0]
        simp only [ne_eq, Nat.one_ne_zero, not_false_eq_true, if_true]
        rw [loop_eq (fun ps i => simdAdd ps i 2 delta) 2 delta (by omega) hb c ps.length start _ ps
          (by omega) (by omega) (by omega)]
        simp only [Outcome.bind_ok]
        rw [addAt_eq _ _ _ (by simp; omega), addSeg_comp _ _ _ _ _ (by omega) (by omega)]
        congr 2; omega
  case sse2lu4 =>
    exact unrolled_eq _ 3 delta (fun ps i h => simdOffsets_eq delta i 2 4 0 ps (by simpa using h)) ps start
  case sse2lu8 =>
    exact unrolled_eq _ 4 delta (fun ps i h => simdOffsets_eq delta i 2 8 0 ps (by simpa using h)) ps start
  case sse2lu16 =>
    exact unrolled_eq _ 5 delta (fun ps i h => simdOffsets_eq delta i 2 16 0 ps (by simpa using h)) ps start
  case avx2 =>
    exact unrolled_eq _ 2 delta (fun ps i h => simdAdd_eq ps i 4 delta (by simpa using h)) ps start
  case avx2lu4 =>
    exact unrolled_eq _ 4 delta (fun ps i h => simdOffsets_eq delta i 4 4 0 ps (by simpa using h)) ps start
  case avx2lu8 =>
    exact unrolled_eq _ 5 delta (fun ps i h => simdOffsets_eq delta i 4 8 0 ps (by simpa using h)) ps start

/-- **C39.** All factors give the same result. -/
theorem adjust_agree (f g : Factor) (delta : Word) (ps : List Word) (start : Nat) :
    adjust f delta ps start = adjust g delta ps start := by
  rw [adjust_spec, adjust_spec]

-- A non-trivial instance: 7 positions, start 1, negative delta, remainder loop used.
example : adjust .avx2 (-3) [0, 5, 7, 9, 12, 20, 31] 1 = .ok [0, 2, 4, 6, 9, 17, 28] := by decide
example : adjust .sse2 (-3) [0, 5, 7, 9, 12, 20, 31, 40] 1 = .ok [0, 2, 4, 6, 9, 17, 28, 37] := by decide

end Mdds.Mtv.Kernels
