import Verif.FST.WidthLemmas
import Verif.FST.Props

/-!
# flat_segment_tree over a fixed-width key type: property theorems C66

C01 - C10 are about keys that never overflow.  Here keys live in a built-in integer type `K`
and every addition and subtraction the code makes is done in that type.  The question is when
the code over `K` does what the code over unbounded integers does, and what it does otherwise.
-/
namespace Mdds.FST

variable {V : Type} [DecidableEq V]

/-- The container `[lo, hi)` has its borders in the key type. -/
structure KeyType.Holds (K : KeyType) (lo hi : Int) : Prop where
  lo : K.lo ≤ lo
  hi : hi ≤ K.hi

/-- **C66** (shift_left).  On a container whose borders are keys, removing `[s, e)` over the type
`K` gives exactly the result over unbounded integers if and only if the type wraps around or the
length `e - s` is itself a key; otherwise the subtraction `e - s` is undefined.  In particular the
wrapped intermediate lengths of unsigned and narrow types are harmless. -/
theorem C66_shiftLeft_partial (K : KeyType) {lo hi : Int} {dv init : V} {ls : List (Leaf V)}
    (w : WF lo hi dv ls) (hk : K.Holds lo hi) {s e : Int} (hs : lo ≤ s) (hse : s < e) (he : e ≤ hi) :
    (shiftLeftLeavesK K ls init s e = shiftLeftLeaves ls init s e ↔ (K.wraps = true ∨ e - s ≤ K.hi)) ∧
      (shiftLeftLeavesK K ls init s e ≠ shiftLeftLeaves ls init s e →
        shiftLeftLeavesK K ls init s e = .ub) := by
  have h0 := K.lo_le
  by_cases hc : K.wraps = true ∨ e - s ≤ K.hi
  · have hn : ∃ sz, K.norm (e - s) = .ok sz := by
      unfold KeyType.norm
      by_cases hf : K.Has (e - s)
      · rw [if_pos hf]; exact ⟨_, rfl⟩
      · rw [if_neg hf]
        rcases hc with h | h
        · rw [if_pos h]; exact ⟨_, rfl⟩
        · exact absurd ⟨by omega, h⟩ hf
    obtain ⟨sz, hn⟩ := hn
    have e1 := shiftLeftK_exact K w hk.lo hk.hi hs hse he hn init
    exact ⟨⟨fun _ => hc, fun _ => e1⟩, fun h => absurd e1 h⟩
  · have hn : K.norm (e - s) = .ub := by
      unfold KeyType.norm
      rw [if_neg (fun h => hc (Or.inr h.2)), if_neg (fun h => hc (Or.inl h))]
    have e1 := shiftLeftK_ub K w hs hse he hn init
    refine ⟨⟨fun h => ?_, fun h => absurd h hc⟩, fun _ => e1⟩
    obtain ⟨r, hr, -⟩ := shiftLeft_spec w init s e
    rw [e1, hr] at h; cases h

/-- **C66** (shift_right).  Of the borders the call moves, look at the first one that is pushed to
or past the end of the container.  The call over `K` gives exactly the result over unbounded
integers if and only if there is no such border or its moved position is still a key.  The code
computes the position before it compares it with the end. -/
theorem C66_shiftRight_partial (K : KeyType) {lo hi : Int} {dv init : V} {ls : List (Leaf V)}
    (w : WF lo hi dv ls) (hk : K.Holds lo hi) (hwd : K.wraps = true ∨ hi - lo ≤ K.hi)
    {p n : Int} {skip : Bool} (h1 : lo ≤ p) (h2 : p < hi) (hn : 0 < n) (hnK : n ≤ K.hi) :
    shiftRightLeavesK K ls init p n skip = shiftRightLeaves ls init p n skip ↔
      ∀ k, (ls.map (·.1)).find? (fun k => decide (Moved lo hi p skip k ∧ hi ≤ k + n)) = some k →
        k + n ≤ K.hi := by
  obtain ⟨A, B, e, hA, hB, A', e1, e2⟩ := shiftRight_both K w hn h1 h2 init skip hk.lo hk.hi hwd
  rw [show ls.map (·.1) = (A ++ (B ++ [(hi, dv)])).map (·.1) by rw [← e], ← firstFits_iff K hA hB]
  have hlo := hk.lo
  have hB2 : ∀ m ∈ B, K.lo ≤ m.1 ∧ m.1 < hi := fun m hm => by
    have := hB m hm
    have h3 := this.1; have h4 := this.2.1
    exact ⟨by omega, h4⟩
  rw [e1, e2]
  constructor
  · intro h
    by_contra hf
    apply shiftKeysRightK_wrong K hk.hi hn hnK hB2 hf
    cases hr : shiftKeysRightK K hi n B with
    | ok m =>
      rw [hr] at h
      simp only [Outcome.map, Outcome.ok.injEq, Prod.mk.injEq, and_true, List.append_cancel_right_eq,
        List.append_cancel_left_eq] at h
      rw [h]
    | err x => rw [hr] at h; cases h
    | ub => rw [hr] at h; cases h
  · intro hf
    rw [shiftKeysRightK_exact K hk.hi hn (fun m hm => (hB2 m hm).1) hf]
    rfl

/-- Calls that cannot overflow: no bound on anything but the sizes of right shifts. -/
def Op.Tame (K : KeyType) (hi : Int) : Op V → Prop
  | .shiftRight _ n _ => hi - 1 + n ≤ K.hi
  | _ => True

theorem shiftLeft_noop {lo hi : Int} {dv init : V} {ls : List (Leaf V)} (K : KeyType) (w : WF lo hi dv ls)
    {s e : Int} (h : ¬ (lo ≤ s ∧ s < e ∧ e ≤ hi)) :
    shiftLeftLeavesK K ls init s e = shiftLeftLeaves ls init s e := by
  unfold shiftLeftLeavesK shiftLeftLeaves
  by_cases c1 : s ≥ e
  · rw [if_pos c1, if_pos c1]
  · rw [if_neg c1, if_neg c1]
    simp only [bounds_eq w]
    by_cases c2 : s < lo ∨ e < lo
    · rw [if_pos c2, if_pos c2]
    · rw [if_neg c2, if_neg c2]
      have c3 : s > hi ∨ e > hi := by omega
      rw [if_pos c3, if_pos c3]

theorem shiftRight_noop {lo hi : Int} {dv init : V} {ls : List (Leaf V)} (K : KeyType) (w : WF lo hi dv ls)
    {p n : Int} {skip : Bool} (h : ¬ (0 < n ∧ lo ≤ p ∧ p < hi)) :
    shiftRightLeavesK K ls init p n skip = shiftRightLeaves ls init p n skip := by
  unfold shiftRightLeavesK shiftRightLeaves
  by_cases c1 : n ≤ 0
  · rw [if_pos c1, if_pos c1]
  · rw [if_neg c1, if_neg c1]
    simp only [bounds_eq w]
    rw [if_pos (by omega), if_pos (by omega)]

theorem stepK_eq (K : KeyType) {lo hi : Int} {dv init : V} {st : State V} (i : Inv lo hi dv init st)
    (hk : K.Holds lo hi) (hwd : K.wraps = true ∨ hi - lo ≤ K.hi) {o : Op V} (ho : o.Tame K hi) :
    stepK K st o = step st o := by
  have hlo := hk.lo; have hhi := hk.hi; have h0 := K.lo_le
  cases o with
  | shiftLeft s e =>
    simp only [stepK, step]
    by_cases hc : lo ≤ s ∧ s < e ∧ e ≤ hi
    · obtain ⟨a, b, c⟩ := hc
      rw [((C66_shiftLeft_partial K i.wf hk a b c).1).2 (hwd.imp id (fun h => by omega))]
    · rw [shiftLeft_noop K i.wf hc]
  | shiftRight p n skip =>
    simp only [stepK, step]
    by_cases hc : 0 < n ∧ lo ≤ p ∧ p < hi
    · obtain ⟨a, b, c⟩ := hc
      simp only [Op.Tame] at ho
      congr 1
      obtain ⟨A, B, e, hA, hB, A', e1, e2⟩ := shiftRight_both K i.wf a b c st.init skip hlo hhi hwd
      rw [e1, e2, shiftKeysRightK_exact K hhi a]
      · rfl
      · intro m hm; have := (hB m hm).1; omega
      · intro m hm
        have := (hB m (List.mem_of_find?_eq_some hm)).2.1
        omega
    · rw [shiftRight_noop K i.wf hc]
  | _ => rfl

/-- **C66** (histories).  Take a container of keys `[lo, hi)` over a type `K`; if `K` does not wrap
around, its length must be a key.  Every history of API calls in which each right shift is by at
most `max(K) + 1 - hi` ends in exactly the state the history gives over unbounded integers, so
every statement of C01 - C10 about that state holds over `K`. -/
theorem C66_history_partial (K : KeyType) {lo hi : Int} (hlt : lo < hi) (dv init : V) (hk : K.Holds lo hi)
    (hwd : K.wraps = true ∨ hi - lo ≤ K.hi) {ops : List (Op V)} (ho : ∀ o ∈ ops, o.Tame K hi) :
    runK K (mk dv lo hi init) ops = run (mk dv lo hi init) ops := by
  have gen : ∀ (ops : List (Op V)) (st : State V), Inv lo hi dv init st → (∀ o ∈ ops, o.Tame K hi) →
      runK K st ops = run st ops := by
    intro ops
    induction ops with
    | nil => intros; rfl
    | cons o os ih =>
      intro st i ho
      unfold runK run
      rw [stepK_eq K i hk hwd (ho o (by simp))]
      cases hs : step st o with
      | ok s1 => exact ih s1 (step_inv i hs) (fun q hq => ho q (by simp [hq]))
      | err x => rfl
      | ub => rfl
  exact gen ops _ (inv_mk hlt dv init) ho

/-! Non-vacuity: a `uint8_t` container `[0, 200)` where the removed lengths and moved keys are
large, with a tame right shift. -/

def widthOps : List (Op Nat) :=
  [.insertFront 20 60 1, .insertBack 150 190 2, .shiftLeft 10 100, .shiftRight 5 56 false, .buildTree]

example : ∀ o ∈ widthOps, o.Tame KeyType.uint8 200 := by
  simp [widthOps, Op.Tame, KeyType.uint8]

example : (runK KeyType.uint8 (mk 9 0 200 0) widthOps).map (·.leaves) =
    .ok [(0, 0), (116, 2), (156, 0), (200, 9)] := by decide +kernel

/-- A wrapped length that is harmless: `int8_t`, `[-100, 100)`, removing 180 keys.  The length is
stored as `-76`. -/
example : KeyType.int8.norm (80 - (-100)) = .ok (-76) ∧
    shiftLeftLeavesK KeyType.int8 [(-100, 0), (90, 1), (100, 9)] 0 (-100) 80 =
      .ok ([(-100, 0), (-90, 1), (-80, 0), (100, 9)], false) := by decide +kernel

/-- A right shift that meets the condition although the pushed border leaves the container. -/
example : (([(0, 0), (50, 1), (120, 2), (200, 9)] : List (Leaf Nat)).map (·.1)).find?
      (fun k => decide (Moved 0 200 30 false k ∧ (200 : Int) ≤ k + 100)) = some 120 ∧
    (120 : Int) + 100 ≤ KeyType.uint8.hi := by decide +kernel

/-- **C66 fails** without the bound on right shifts, unsigned keys: a `uint8_t` container `[0, 250)`
with value 7 on `[200, 210)`.  `shift_right(100, 100)` should push that segment out of the container
and leave value 0 everywhere.  The borders 200 and 210 become 44 and 54 instead, which is below the
end, so they are kept: the segment reappears at `[44, 54)`. -/
theorem C66_unsigned_fails :
    (runK KeyType.uint8 (mk 9 0 250 0) [.insertFront 200 210 7, .shiftRight 100 100 false]).map (·.leaves) =
      .ok [(0, 0), (44, 7), (54, 0), (250, 9)] ∧
    (run (mk 9 0 250 0) [.insertFront 200 210 7, .shiftRight 100 100 false]).map (·.leaves) =
      .ok [(0, 0), (250, 9)] := by decide +kernel

/-- **C66 fails**: after the wrap the borders can be out of order.  Value 1 sits on `[90, 95)`, value
7 on `[200, 210)`; after `shift_right(100, 100)` the list of borders is 0, 90, 95, 44, 54, 250, and a
lookup of key 50 does not find the segment that starts at 44. -/
theorem C66_order_fails :
    ((runK KeyType.uint8 (mk 9 0 250 0)
        [.insertFront 90 95 1, .insertFront 200 210 7, .shiftRight 100 100 false]).map
          (fun s => s.leaves.map (·.1))) = .ok [0, 90, 95, 44, 54, 250] ∧
    ((runK KeyType.uint8 (mk 9 0 250 0)
        [.insertFront 90 95 1, .insertFront 200 210 7, .shiftRight 100 100 false]).bind
          (fun s => (search s.leaves 50).map (·.map (·.value)))) = .ok (some 0) := by decide +kernel

/-- **C66 fails**, signed keys: with `int` keys the same call is undefined behaviour (signed
overflow), although both arguments are inside the container and the exact result exists. -/
theorem C66_signed_fails :
    runK KeyType.int32 (mk 9 0 2000000000 0)
      [.insertFront 1900000000 1900000010 7, .shiftRight 100 1000000000 false] = .ub ∧
    (run (mk 9 0 2000000000 0)
      [.insertFront 1900000000 1900000010 7, .shiftRight 100 1000000000 false]).map (·.leaves) =
      .ok [(0, 0), (2000000000, 9)] := by decide +kernel

/-- **C66 fails**, signed keys, left shift: in an `int` container `[-2000000000, 2000000000)` removing
all keys overflows although the result (everything initial) exists. -/
theorem C66_length_fails :
    runK KeyType.int32 (mk 9 (-2000000000) 2000000000 0) [.shiftLeft (-2000000000) 2000000000] = .ub ∧
    (run (mk 9 (-2000000000) 2000000000 0) [.shiftLeft (-2000000000) 2000000000]).map (·.leaves) =
      .ok [(-2000000000, 0), (2000000000, 9)] := by decide +kernel

end Mdds.FST
