import Verif.Coll.Lemmas
/-!
# Collections: theorems
-/

namespace Mdds.Coll

open Mdds.Mtv

variable {α : Type} [DecidableEq α]

/-! ### Containers for the examples -/

/-- Equality of results can be decided (instance search does not find this by itself). -/
instance : DecidableEq (List (Nat × Nat × Cell Nat)) := inferInstance
instance : DecidableEq (Outcome (List (Nat × Nat × Cell Nat))) :=
  @instDecidableEqOutcome _ (inferInstanceAs (DecidableEq (List (Nat × Nat × Cell Nat))))

/-- Calls that fill a container. -/
def calls2 : List (Call Nat) := [.resize 7, .set none 3 tI 30, .set none 4 tS 40]
/-- Calls that fill a container. -/
def calls3 : List (Call Nat) := [.resize 7, .setRange none 0 tS [10, 11, 12, 13, 14, 15, 16]]
/-- Calls that fill a container. -/
def calls4 : List (Call Nat) := [.resize 2]

/-- Containers made by calls on an empty one. -/
def made (cs : List (Call Nat)) : St Nat := (runAll cs mk0).getD mk0

/-- Three containers of length 7, one of length 2, and an empty one. -/
def exMem : Mem Nat := fun v =>
  if v = 1 then demo else if v = 2 then made calls2 else if v = 3 then made calls3 else if v = 4 then made calls4 else mk0

theorem exMem_reachable (v : Nat) : Reachable (exMem v) := by
  unfold exMem
  split
  · exact demo_reachable
  · split
    · exact ⟨.default, mk0, calls2, rfl, by simp [calls2, Along, Call.Defined, Call.at_, contents, mk0, typeAt], by simp [calls2, Along], by decide +kernel⟩
    · split
      · exact ⟨.default, mk0, calls3, rfl, by simp [calls3, Along, Call.Defined, Call.at_, contents, mk0, typeAt], by simp [calls3, Along], by decide +kernel⟩
      · split
        · exact ⟨.default, mk0, calls4, rfl, by simp [calls4, Along, Call.Defined, Call.at_, contents, mk0, typeAt], by simp [calls4, Along], by decide +kernel⟩
        · exact ⟨.default, mk0, [], rfl, trivial, trivial, rfl⟩

/-! ### C45 -/

/-- A collection can be made from one or more containers exactly if all have one length and it is
not 0; it then covers all of them, and `size()` is the length.  Otherwise the constructor throws. -/
theorem C45_construct (mem : Mem α) (vs : List Nat) (hv : vs ≠ []) (hr : ∀ v ∈ vs, Reachable (mem v)) :
    (∀ n, OneLength mem vs n → ∃ c, mkRange mem vs = .ok c ∧ size c = n ∧ Rel c (View.whole vs n)) ∧
    ((¬ ∃ n, OneLength mem vs n) → mkRange mem vs = .err .invalidArg) := by
  refine ⟨fun n hn => ?_, mkRange_bad hv hr⟩
  obtain ⟨c, h1, h2⟩ := mkRange_ok hv hr hn
  exact ⟨c, h1, h2.len, h2⟩

example : (∀ v ∈ [1, 2, 3], Reachable (exMem v)) ∧ OneLength exMem [1, 2, 3] 7 ∧ ¬ ∃ n, OneLength exMem [1, 4] n := by
  refine ⟨fun v _ => exMem_reachable v, by decide +kernel, ?_⟩
  rintro ⟨n, h⟩
  have h1 := h.2 1 (by simp)
  have h2 := h.2 4 (by simp)
  rw [← h2] at h1
  revert h1
  decide +kernel

/-- After any calls on two collections (made from containers as they are at that time, ranges set
or refused, swapped) none is undefined behaviour, and iteration over either of them visits, for
every position of the element range in order, every container of the container range in order,
once, with the type and value stored there now.  It ends: any number of rounds larger than the
number of visits gives this result.

The containers may have been changed since, but must still have the length they had. -/
theorem C45_traverse (os : List (Op α)) (hd : ∀ o ∈ os, o.Defined) :
    ∃ p, runOps os (nothing, nothing) = some p ∧ ∀ (s : Bool) (mem : Mem α),
      let w := side s (specOps os (View.none, View.none))
      (∀ v ∈ w.vecs, Reachable (mem v)) → (∀ v ∈ w.vecs, (contents (mem v)).length = w.len) → w.len < W →
      size (side s p) = w.len ∧
      ∀ fuel, w.elemSize * w.colSize < fuel → traverse mem (side s p) fuel = some (.ok (w.rows (cellOf mem))) := by
  obtain ⟨p, h1, h2⟩ := ops_ok os (p := (nothing, nothing)) (q := (View.none, View.none)) ⟨nothing_rel, nothing_rel⟩ hd
  refine ⟨p, h1, fun s mem hr hl hW => ⟨(h2.side s).len, fun fuel hf => ?_⟩⟩
  exact traverse_ok (h2.side s) hr hl hW fuel hf

/-- A history: two collections, refused ranges, a swap. -/
def exOps : List (Op Nat) :=
  [.make true exMem [1, 2, 3], .make false exMem [1, 4], .setCol true 1 2, .setElem true 3 2, .setElem true 3 5, .setCol true 0 0, .swap]

example : ∀ o ∈ exOps, o.Defined := by
  intro o ho
  simp only [exOps, List.mem_cons, List.not_mem_nil, or_false] at ho
  rcases ho with rfl | rfl | rfl | rfl | rfl | rfl | rfl
  · exact ⟨by simp, fun v _ => exMem_reachable v⟩
  · exact ⟨by simp, fun v _ => exMem_reachable v⟩
  all_goals simp [Op.Defined, W]

example : side false (specOps exOps (View.none, View.none)) = ⟨[1, 2, 3], 7, 1, 2, 3, 2⟩ ∧
    side true (specOps exOps (View.none, View.none)) = View.none := by decide +kernel

example : (side false (specOps exOps (View.none, View.none))).rows (cellOf exMem) =
    [(1, 3, some (tI, 30)), (2, 3, some (tS, 13)), (1, 4, some (tS, 40)), (2, 4, some (tS, 14))] := by decide +kernel

/-- Every range that is not empty and lies within the collection is accepted, every other is
refused.  Partial: as long as start and size can be added; false otherwise
(`C45_overflow_fails`). -/
theorem C45_ranges_partial (c : Coll) (a n : Nat) (h : a + n < W) :
    setCollectionRange a n c = (if Within c.vecs.length a n then .ok { c with col := ⟨a, n⟩ } else .err .invalidArg) ∧
    setElementRange a n c = (if Within (size c) a n then .ok { c with elem := ⟨a, n⟩ } else .err .invalidArg) := by
  refine ⟨?_, ?_⟩
  · have := check_iff (n := c.vecs.length) h
    unfold setCollectionRange
    by_cases hw : Within c.vecs.length a n
    · rw [if_pos (this.2 hw), if_pos hw]
    · rw [if_neg (fun hx => hw (this.1 hx)), if_neg hw]
  · have := check_iff (n := c.mtvSize) h
    unfold setElementRange
    by_cases hw : Within (size c) a n
    · rw [if_pos (this.2 hw), if_pos hw]
    · rw [if_neg (fun hx => hw (this.1 hx)), if_neg hw]

example : Within 3 1 2 ∧ ¬ Within 3 1 3 ∧ ¬ Within 3 1 0 ∧ 1 + 3 < W := by decide

/-- An empty range, and a range that starts behind the end, is refused whatever its other number:
here the wrap-around of the sum does no harm. -/
theorem C45_refused (c : Coll) (a n : Nat) :
    (n = 0 ∨ c.vecs.length ≤ a → setCollectionRange a n c = .err .invalidArg) ∧
    (n = 0 ∨ size c ≤ a → setElementRange a n c = .err .invalidArg) := by
  refine ⟨fun h => ?_, fun h => ?_⟩
  · unfold setCollectionRange checkRange
    rcases h with h | h <;> simp [h]
  · unfold setElementRange checkRange
    rcases h with h | h
    · simp [h]
    · have : c.mtvSize ≤ a := h
      simp [this]

example : setCollectionRange 3 (W - 3) (match mkRange exMem [1, 2, 3] with | .ok c => c | _ => nothing) =
    .err .invalidArg := rfl

/-- How often each container is visited at each position: exactly once if both are in range. -/
theorem C45_once (cell : Nat → Nat → Cell α) (w : View) (hc : w.colStart + w.colSize ≤ w.vecs.length) (k p : Nat) :
    ((w.rows cell).filter fun x => x.1 == k && x.2.1 == p).length =
      if (w.colStart ≤ k ∧ k < w.colStart + w.colSize) ∧ w.elemStart ≤ p ∧ p < w.elemStart + w.elemSize then 1 else 0 := by
  have hin : ∀ q, (List.filter (fun x : Nat × Nat × Cell α => x.1 == k && x.2.1 == p)
      ((List.range' w.colStart w.colSize).filterMap fun j => w.vecs[j]?.map fun v => (j, q, cell v q))).length =
      if (w.colStart ≤ k ∧ k < w.colStart + w.colSize) ∧ q = p then 1 else 0 := by
    intro q
    generalize w.colStart = a at hc ⊢
    generalize w.colSize = n at hc ⊢
    induction n generalizing a with
    | zero => simp
    | succ n ih =>
      have hlt : a < w.vecs.length := by omega
      have := ih (a + 1) (by omega)
      rw [List.range'_succ, List.filterMap_cons]
      simp only [List.getElem?_eq_getElem hlt, Option.map_some, List.filter_cons]
      by_cases hk : a = k ∧ q = p
      · obtain ⟨rfl, rfl⟩ := hk
        simp only [beq_self_eq_true, Bool.and_self, if_true, List.length_cons, this]
        rw [if_neg (by omega), if_pos ⟨by omega, trivial⟩]
      · rw [if_neg (by simpa using hk), this]
        split <;> split <;> omega
  unfold View.rows
  generalize w.elemStart = a
  generalize w.elemSize = n
  induction n generalizing a with
  | zero => simp
  | succ n ih =>
    rw [List.range'_succ, List.flatMap_cons, List.filter_append, List.length_append, hin, ih (a + 1)]
    split <;> split <;> split <;> omega

example : (⟨[1, 2, 3], 7, 1, 2, 3, 2⟩ : View).colStart + 2 ≤ 3 := by decide

omit [DecidableEq α] in
/-- Finding M9: a collection over no containers reads the first of them. -/
theorem C45_empty_fails (mem : Mem α) : mkRange mem [] = .ub := rfl

/-- Finding M10: start and size are added before the check and may wrap around.  The range that
starts at 1 and has 2^64 - 1 elements is accepted by both calls; building an iterator over that
range of containers moves past the end of the vector of pointers; iteration over that range of
positions does not stop at the end and reads the type of a block that does not exist. -/
theorem C45_overflow_fails : ∃ c, mkRange exMem [1, 2, 3] = .ok c ∧
    ¬ Within 3 1 (2 ^ 64 - 1) ∧ ¬ Within 7 1 (2 ^ 64 - 1) ∧
    (∃ c', setCollectionRange 1 (2 ^ 64 - 1) c = .ok c' ∧ traverse exMem c' 100 = some .ub) ∧
    (∃ c', setElementRange 1 (2 ^ 64 - 1) c = .ok c' ∧ traverse exMem c' 100 = some .ub) := by
  refine ⟨(match mkRange exMem [1, 2, 3] with | .ok c => c | _ => nothing), by decide +kernel, by decide, by decide,
    ⟨_, rfl, by decide +kernel⟩, ⟨_, rfl, by decide +kernel⟩⟩

/-! ### Tests

`test/multi_type_vector/collection/tc/all.hpp`, replayed. -/

/-- What iteration over all of some containers gives. -/
def iterAll (mem : Mem Nat) (vs : List Nat) : Option (Outcome (List (Nat × Nat × Cell Nat))) :=
  match mkRange mem vs with
  | .ok c => traverse mem c 100
  | .err e => some (.err e)
  | .ub => some .ub

/-- Test `mtv_test_empty`. -/
example : traverse exMem nothing 1 = some (.ok []) := by decide +kernel

/-- Test `mtv_test_unique_pointer_size1`. -/
example : iterAll (fun v => if v = 0 then made [.resize 1] else made [.resize 1, .set none 0 tI 11]) [0, 1] =
    some (.ok [(0, 0, none), (1, 0, some (tI, 11))]) := by decide +kernel

/-- Test `mtv_test_shared_pointer_size2`. -/
example : iterAll (fun v => if v = 0 then made [.pushBack tI 23, .pushBack tI 23] else made [.pushBack tS 7, .pushBack tS 7]) [0, 1] =
    some (.ok [(0, 0, some (tI, 23)), (1, 0, some (tS, 7)), (0, 1, some (tI, 23)), (1, 1, some (tS, 7))]) := by decide +kernel

/-- Test `mtv_test_invalid_collection`. -/
example : iterAll exMem [1, 4] = some (.err .invalidArg) ∧ iterAll exMem [5, 5] = some (.err .invalidArg) := by decide +kernel

end Mdds.Coll
