import Verif.SegTree.StepLemmas
import Mathlib.Data.List.Perm.Subperm

/-!
# segment_tree: properties C11-C14

`live dv st` is the list of stored segments (erased entries hold a value-initialised segment).
-/
namespace Mdds.SegTree
variable {V : Type} [DecidableEq V]

theorem reachable_inv {dv : V} {st : State V} (h : Reachable dv st) : Inv dv st := by
  obtain ⟨ops, h⟩ := h
  exact run_inv ops (inv_mk dv) h

/-! ## C11 stabbing queries -/

/-- C11. In every reachable container whose tree is valid, a search returns exactly the stored
segments `[start, stop)` that contain the point: none missing, none extra, each as often as it is
stored. -/
theorem C11_search_exact (dv : V) (st : State V) (hr : Reachable dv st) (hv : st.valid = true) (p : Int) :
    ∃ l, found st p = some l ∧ l.Perm (stab (live dv st) p) :=
  found_perm (reachable_inv hr) hv p

/-- C11. No stored entry is reported twice, and every reported index refers to a stored entry. -/
theorem C11_search_no_duplicates (dv : V) (st : State V) (hr : Reachable dv st) (p : Int) :
    (search st p).flatten.Nodup ∧ ∀ i ∈ (search st p).flatten, i < st.store.length := by
  cases hv : st.valid with
  | false =>
    have : search st p = [] := by unfold search; rw [hv]; cases st.root <;> rfl
    simp [this]
  | true =>
    obtain ⟨t, ht, inv⟩ := (reachable_inv hr).tree hv
    have hflat : (search st p).flatten = (descend p t).flatten := by
      unfold search; rw [ht, hv]; exact flatten_filter_ne_nil _
    rw [hflat]
    have hcnt : ∀ j, (descend p t).flatten.count j = hit st.store[j]? p := inv.cnt p
    constructor
    · rw [List.nodup_iff_count]
      intro j
      rw [hcnt]
      cases st.store[j]? with
      | none => simp [hit]
      | some s => simp only [hit]; split <;> omega
    · intro x hx
      have h1 := List.count_pos_iff.2 hx
      rw [hcnt] at h1
      by_contra hn
      rw [List.getElem?_eq_none (by omega)] at h1; simp [hit] at h1

/-- C11. The loop from `begin()` to `end()` over a search result terminates and visits exactly the
reported entries; `size()` is their number. -/
theorem C11_iterate_results (st : State V) (p : Int) (fuel : Nat) (hf : resSize (search st p) < fuel) :
    iterate (search st p) fuel (itBegin (search st p)) = some (search st p).flatten ∧
      resSize (search st p) = (search st p).flatten.length := by
  have h : resSize (search st p) = (search st p).flatten.length := by simp [resSize, List.length_flatten]
  exact ⟨iterate_all _ (search_nonempty st p) fuel (by omega), h⟩

/-- C11. Decrementing undoes incrementing, at every position of a search result. -/
theorem C11_decrement_undoes_increment (st : State V) (p : Int) (ch pos : Nat) (i' : It)
    (hc : itCur (search st p) ⟨ch, pos, false⟩ ≠ none)
    (hi : itInc (search st p) ⟨ch, pos, false⟩ = some i') :
    itDec (search st p) i' = some ⟨ch, pos, false⟩ := by
  have hne := search_nonempty st p
  generalize search st p = res at *
  have hres : res ≠ [] := by rintro rfl; simp [itCur] at hc
  unfold itInc at hi
  cases hch : res[ch]? with
  | none => rw [hch] at hi; cases hi
  | some c =>
    simp only [hch] at hi
    split at hi
    · rename_i h1
      split at hi
      · cases hi; simp [itDec, hres]
      · cases hi
        simp [itDec, hres, hch]; omega
    · cases hi; simp [itDec, hres]

/-- C11. A container whose tree is not valid answers every search with an empty result. -/
theorem C11_search_invalid_empty (st : State V) (hv : st.valid = false) (p : Int) :
    found st p = some [] := found_invalid st hv p

section
/-- Three segments, one erased without rebuilding. -/
private def demo : List (Op Nat) :=
  [.insert 0 10 1, .insert 5 15 2, .insert 5 10 3, .insert 7 7 9, .build, .eraseIf (fun s => s.value == 1)]

/-- the hypotheses are met by a container with three overlapping segments -/
example : ∃ st, Reachable 0 st ∧ st.valid = true ∧
    found st 7 = some [⟨5, 10, 3⟩, ⟨5, 15, 2⟩] ∧ found st 3 = some [] := by
  refine ⟨_, ⟨demo, rfl⟩, ?_⟩
  decide +kernel
end

/-! ## C12 erase -/

/-- C12. `erase_if` removes exactly the stored segments that satisfy the predicate, returns their
number, and keeps the tree valid. -/
theorem C12_eraseIf (dv : V) (st : State V) (hr : Reachable dv st) (pred : Seg V → Bool) :
    ∃ st', eraseIf dv pred st = .ok (st', ((live dv st).filter pred).length) ∧
      live dv st' = (live dv st).filter (fun s => !pred s) ∧ st'.valid = st.valid := by
  obtain ⟨st', h1, h2, h3, -⟩ := eraseIf_spec pred (reachable_inv hr)
  refine ⟨st', h1, ?_, h3⟩
  unfold live
  rw [h2]
  exact live_scrub dv pred st.store

/-- C12. `erase(it)` removes exactly the entry that the iterator refers to. -/
theorem C12_eraseAt (dv : V) (st : State V) (hr : Reachable dv st) (pos : Nat) (seg : Seg V)
    (hs : st.store[pos]? = some seg) (hl : seg ≠ deleted dv) :
    ∃ st', removeValuePos dv pos st = .ok st' ∧ (live dv st).Perm (seg :: live dv st') ∧
      st'.valid = st.valid ∧ ∀ j ≠ pos, st'.store[j]? = st.store[j]? := by
  have hp : pos < st.store.length := (List.getElem?_eq_some_iff.1 hs).1
  have hg : st.store[pos] = seg := (List.getElem?_eq_some_iff.1 hs).2
  obtain ⟨st', h1, h2, h3, -⟩ := removeValuePos_inv (reachable_inv hr) hp
  refine ⟨st', h1, ?_, h3, ?_⟩
  · unfold live
    rw [h2, List.set_eq_take_append_cons_drop, if_pos hp]
    conv_lhs => rw [← List.take_append_drop pos st.store, List.drop_eq_getElem_cons hp, hg]
    rw [List.filter_append, List.filter_append, List.filter_cons_of_pos (by simp [hl]),
      List.filter_cons_of_neg (by simp)]
    exact List.perm_middle
  · intro j hj
    rw [h2, List.getElem?_set_ne (Ne.symm hj)]

/-- C12. After an `erase_if` on a valid tree, searches are exact at once, without a rebuild. -/
theorem C12_search_after_eraseIf (dv : V) (st : State V) (hr : Reachable dv st) (hv : st.valid = true)
    (pred : Seg V → Bool) (p : Int) :
    ∃ st' n l, eraseIf dv pred st = .ok (st', n) ∧ found st' p = some l ∧
      l.Perm (stab ((live dv st).filter (fun s => !pred s)) p) := by
  obtain ⟨st', h1, h2, h3, h4⟩ := eraseIf_spec pred (reachable_inv hr)
  obtain ⟨l, h5, h6⟩ := found_perm h4 (by rw [h3, hv]) p
  refine ⟨st', _, l, h1, h5, ?_⟩
  have : live dv st' = (live dv st).filter (fun s => !pred s) := by
    unfold live; rw [h2]; exact live_scrub dv pred st.store
  rw [← this]; exact h6

/-- C12. The same after `erase(it)`: the erased entry, and only it, disappears from every search. -/
theorem C12_search_after_eraseAt (dv : V) (st : State V) (hr : Reachable dv st) (hv : st.valid = true)
    (pos : Nat) (seg : Seg V) (hs : st.store[pos]? = some seg) (hl : seg ≠ deleted dv) (p : Int) :
    ∃ st' before after, removeValuePos dv pos st = .ok st' ∧ found st p = some before ∧
      found st' p = some after ∧
      before.Perm (if seg.contains p then seg :: after else after) := by
  obtain ⟨st', h1, h2, h3, -⟩ := C12_eraseAt dv st hr pos seg hs hl
  have hp : pos < st.store.length := (List.getElem?_eq_some_iff.1 hs).1
  obtain ⟨st2, h1', -, -, h4⟩ := removeValuePos_inv (reachable_inv hr) hp
  rw [h1] at h1'; cases h1'
  obtain ⟨b, hb1, hb2⟩ := found_perm (reachable_inv hr) hv p
  obtain ⟨a, ha1, ha2⟩ := found_perm h4 (by rw [h3, hv]) p
  refine ⟨st', b, a, h1, hb1, ha1, hb2.trans ?_⟩
  have hf := h2.filter (·.contains p)
  unfold stab
  refine hf.trans ?_
  by_cases hc : seg.contains p = true
  · rw [List.filter_cons_of_pos (p := fun x : Seg V => x.contains p) hc, if_pos hc]
    exact (ha2.symm).cons _
  · rw [List.filter_cons_of_neg (p := fun x : Seg V => x.contains p) hc, if_neg hc]
    exact ha2.symm

/-- C12. Rebuilding the tree does not change any answer. -/
theorem C12_rebuild_same_answers (dv : V) (st : State V) (hr : Reachable dv st) (hv : st.valid = true) (p : Int) :
    ∃ l l', found st p = some l ∧ found (buildTree dv st) p = some l' ∧ l.Perm l' := by
  have hi := reachable_inv hr
  obtain ⟨l, h1, h2⟩ := found_perm hi hv p
  obtain ⟨hstore, hcase⟩ := buildTree_cases dv st hi
  have hlive : live dv (buildTree dv st) = live dv st := by
    unfold live; rw [hstore]; unfold live; rw [List.filter_filter]; simp
  rcases hcase with ⟨he, hvf⟩ | ⟨he, hvt, -⟩
  · refine ⟨l, [], h1, found_invalid _ hvf p, ?_⟩
    rw [he] at h2; simpa [stab] using h2
  · obtain ⟨l', h3, h4⟩ := found_perm (buildTree_inv dv st hi) hvt p
    rw [hlive] at h4
    exact ⟨l, l', h1, h3, h2.trans h4.symm⟩

/-- a container with three segments, one of which is erased through its position -/
example : ∃ st, Reachable 0 st ∧ st.valid = true ∧ st.store[1]? = some ⟨5, 15, 2⟩ ∧
    (⟨5, 15, 2⟩ : Seg Nat) ≠ deleted 0 ∧ (found st 7).map List.length = some 3 ∧
    (removeValuePos 0 1 st).map (found · 7) = .ok (some [⟨0, 10, 1⟩, ⟨5, 10, 3⟩]) := by
  refine ⟨_, ⟨[.insert 0 10 1, .insert 5 15 2, .insert 5 10 3, .build], rfl⟩, ?_⟩
  decide +kernel

/-! ## C13 insertion, validity flag, size, boundary keys -/

/-- C13. `insert` succeeds iff `start < end`; otherwise it throws.  On success the segment is added
and the tree becomes invalid. -/
theorem C13_insert (dv : V) (st : State V) (s e : Int) (v : V) :
    (s < e → ∃ st', insert s e v st = .ok st' ∧ live dv st' = live dv st ++ [⟨s, e, v⟩] ∧ st'.valid = false) ∧
      (¬ s < e → insert s e v st = .err .invalidArg) := by
  constructor
  · intro h
    refine ⟨_, by unfold insert; rw [if_neg (by omega)], ?_, rfl⟩
    unfold live
    simp only
    rw [List.filter_append, List.filter_cons_of_pos]
    · rfl
    · have : (⟨s, e, v⟩ : Seg V) ≠ deleted dv := by
        intro he; simp [deleted] at he; omega
      simp [this]
  · intro h; unfold insert; rw [if_pos (by omega)]

/-- C13. Every stored segment of a reachable container has `start < end`. -/
theorem C13_stored_nonempty (dv : V) (st : State V) (hr : Reachable dv st) :
    ∀ s ∈ live dv st, s.start < s.stop := (reachable_inv hr).live_lt

/-- C13. `size` is the number of stored segments, `empty` says that there are none. -/
theorem C13_size (dv : V) (st : State V) :
    size dv st = (live dv st).length ∧ (isEmpty dv st = true ↔ live dv st = []) := by
  have h : size dv st = (live dv st).length := by unfold size live; rw [List.countP_eq_length_filter]
  refine ⟨h, ?_⟩
  unfold isEmpty
  split
  · rename_i he
    simp at he
    simp [live, he]
  · rw [h]; simp

/-- C13. `build_tree` keeps the segments in order; the tree is then valid iff there are any. -/
theorem C13_build (dv : V) (st : State V) (hr : Reachable dv st) :
    live dv (buildTree dv st) = live dv st ∧ ((buildTree dv st).valid = true ↔ live dv st ≠ []) := by
  obtain ⟨hstore, hcase⟩ := buildTree_cases dv st (reachable_inv hr)
  refine ⟨?_, ?_⟩
  · unfold live; rw [hstore]; unfold live; rw [List.filter_filter]; simp
  · rcases hcase with ⟨he, hvf⟩ | ⟨he, hvt, -⟩
    · simp [he, hvf]
    · simp [he, hvt]

/-- C13. `clear` leaves an empty container with an invalid tree; `copy` keeps the segments. -/
theorem C13_clear_copy (dv : V) (st : State V) :
    live dv (clear st) = [] ∧ (clear st).valid = false ∧ live dv (copy dv st) = live dv st := by
  refine ⟨rfl, rfl, ?_⟩
  unfold copy
  simp only
  split
  · have : ∀ s : State V, (buildTree dv s).store = live dv s := by
      intro s; unfold buildTree; simp only; split <;> rfl
    unfold live
    rw [this]
    unfold live
    rw [List.filter_filter]; simp
  · rfl

/-- C13. Boundary keys: strictly increasing, and exactly the end points of the stored segments. -/
theorem C13_boundary_keys (dv : V) (st : State V) :
    (boundaryKeys dv st).Pairwise (· < ·) ∧
      ∀ k, k ∈ boundaryKeys dv st ↔ ∃ s ∈ live dv st, k = s.start ∨ k = s.stop := by
  refine ⟨sortUnique_sorted _, ?_⟩
  intro k
  unfold boundaryKeys
  rw [mem_sortUnique, mem_rawKeys]

/-- C13. In a valid tree, the leaf keys are the boundary keys at the time of the build. -/
theorem C13_leaf_keys (dv : V) (st : State V) :
    (buildTree dv st).leaves = boundaryKeys dv st := by
  unfold buildTree boundaryKeys; simp only; split <;> rfl

/-- C13 (finding). `leaf_size()` of an empty container is 1, not 0. -/
theorem C13_leaf_size_empty_fails : leafSize (mk : State Nat) = 1 := rfl

/-- C13. `leaf_size()` is the number of distinct end points, provided there is one. -/
theorem C13_leaf_size (dv : V) (st : State V) (h : live dv st ≠ []) :
    leafSize (buildTree dv st) = (boundaryKeys dv st).length := by
  unfold leafSize
  rw [C13_leaf_keys, if_neg]
  obtain ⟨s, hs⟩ := List.exists_mem_of_ne_nil _ h
  exact List.ne_nil_of_mem (((C13_boundary_keys dv st).2 s.start).2 ⟨s, hs, Or.inl rfl⟩)

/-- C13. No history of calls with valid iterators is undefined or throws: the only failing step is an
`erase(it)` whose iterator does not refer to an entry of this container. -/
theorem C13_run_defined (dv : V) (st : State V) (hr : Reachable dv st) (o : Op V)
    (h : ∀ pos, o = .eraseAt pos → pos < st.store.length) : ∃ st', step dv st o = .ok st' := by
  have hi := reachable_inv hr
  cases o with
  | insert s e v =>
    simp only [step, insert]
    by_cases hse : e ≤ s
    · simp only [if_pos hse]; exact ⟨_, rfl⟩
    · simp only [if_neg hse]; exact ⟨_, rfl⟩
  | build => exact ⟨_, rfl⟩
  | eraseAt pos =>
    obtain ⟨s1, h1, -⟩ := removeValuePos_inv hi (h pos rfl)
    exact ⟨s1, h1⟩
  | eraseIf pred =>
    obtain ⟨s1, h1, -⟩ := eraseIf_spec pred hi
    exact ⟨s1, by simp [step, h1, Outcome.map]⟩
  | clear => exact ⟨_, rfl⟩
  | recopy => exact ⟨_, rfl⟩

/-- C13 (finding). After a move, the source claims a valid tree while its root pointer refers to
nodes that it no longer owns: searching it is undefined. -/
theorem C13_moved_from_fails :
    ∃ st : State Nat, Reachable 0 st ∧ (moveOut st).2 = ⟨true, true⟩ := by
  refine ⟨_, ⟨[.insert 0 10 1, .build], rfl⟩, ?_⟩
  decide +kernel

example : ∃ st : State Nat, Reachable 0 st ∧ live 0 st ≠ [] ∧ boundaryKeys 0 st = [0, 5, 10, 15] := by
  refine ⟨_, ⟨[.insert 0 10 1, .insert 5 15 2, .insert 5 10 3, .build], rfl⟩, ?_⟩
  decide +kernel

/-! ## C14 equality -/

/-- C14 (finding). Equality of containers is not symmetric and not equality of contents: with
duplicates, `{A, A} == {A, B}` but `{A, B} != {A, A}`. -/
theorem C14_eq_multiset_fails :
    ∃ a b : State Nat, Reachable 0 a ∧ Reachable 0 b ∧ beq 0 a b = true ∧ beq 0 b a = false ∧
      ¬ (live 0 a).Perm (live 0 b) := by
  refine ⟨_, _, ⟨[.insert 0 1 1, .insert 0 1 1], rfl⟩, ⟨[.insert 0 1 1, .insert 0 1 2], rfl⟩, ?_, ?_, ?_⟩
  · decide +kernel
  · decide +kernel
  · decide +kernel

/-- C14 (finding). Containers with equal contents can differ: the validity flag is compared. -/
theorem C14_eq_ignores_validity_fails :
    ∃ a b : State Nat, Reachable 0 a ∧ Reachable 0 b ∧ live 0 a = live 0 b ∧ beq 0 a b = false := by
  refine ⟨_, _, ⟨[.insert 0 1 1], rfl⟩, ⟨[.insert 0 1 1, .build], rfl⟩, ?_, ?_⟩ <;> decide +kernel

/-- C14 (finding). A copy can differ from its original: a valid tree whose segments were all erased
is copied to a container with an invalid tree. -/
theorem C14_copy_eq_fails :
    ∃ a : State Nat, Reachable 0 a ∧ beq 0 (copy 0 a) a = false := by
  refine ⟨_, ⟨[.insert 0 1 1, .build, .eraseIf (fun _ => true)], rfl⟩, ?_⟩
  decide +kernel

/-- C14. What `operator==` decides: same flag, same number of segments, and every segment of the
left side occurs on the right. -/
theorem C14_eq_characterization (dv : V) (a b : State V) :
    beq dv a b = true ↔
      a.valid = b.valid ∧ (live dv a).length = (live dv b).length ∧ ∀ s ∈ live dv a, s ∈ live dv b := by
  unfold beq
  by_cases hv : a.valid = b.valid
  · simp only [hv, ne_eq, not_true, if_false, Bool.and_eq_true, List.all_eq_true, List.any_eq_true,
      decide_eq_true_eq, beq_iff_eq, true_and]
    constructor
    · rintro ⟨h1, h2⟩
      exact ⟨h2, fun s hs => by obtain ⟨x, hx, rfl⟩ := h1 s hs; exact hx⟩
    · rintro ⟨h1, h2⟩
      exact ⟨fun s hs => ⟨s, h2 s hs, rfl⟩, h1⟩
  · simp [hv]

/-- C14, partial: it needs equal validity flags and a left side without duplicates.  Then equality is
equality of contents up to order. -/
theorem C14_eq_iff_perm_partial (dv : V) (a b : State V) (hv : a.valid = b.valid)
    (hd : (live dv a).Nodup) :
    beq dv a b = true ↔ (live dv a).Perm (live dv b) := by
  rw [C14_eq_characterization]
  constructor
  · rintro ⟨-, h1, h2⟩
    exact (List.subperm_of_subset hd h2).perm_of_length_le (by omega)
  · intro h
    exact ⟨hv, h.length_eq, fun s hs => h.mem_iff.1 hs⟩

/-- C14, partial: a copy equals its original, unless the tree is valid and everything was erased. -/
theorem C14_copy_eq_partial (dv : V) (st : State V) (hr : Reachable dv st)
    (h : st.valid = true → live dv st ≠ []) :
    beq dv (copy dv st) st = true ∧ beq dv st (copy dv st) = true := by
  have hl := (C13_clear_copy dv st).2.2
  have hv : (copy dv st).valid = st.valid := by
    unfold copy
    by_cases hv : st.valid = true
    · have h' : Inv dv (⟨st.store, none, [], [], false⟩ : State V) := ⟨(reachable_inv hr).wf, by simp⟩
      have hb := buildTree_cases dv _ h'
      have : live dv (⟨st.store, none, [], [], false⟩ : State V) = live dv st := rfl
      rw [this] at hb
      simp only [if_pos hv]
      rcases hb.2 with ⟨he, -⟩ | ⟨-, h2, -⟩
      · exact absurd he (h hv)
      · rw [hv]; exact h2
    · simp only [if_neg hv]
  rw [C14_eq_characterization, C14_eq_characterization, hl, hv]
  simp

/-- a valid container with two distinct segments meets both hypotheses -/
example : ∃ a : State Nat, Reachable 0 a ∧ a.valid = true ∧ (live 0 a).Nodup ∧ (live 0 a).length = 2 := by
  refine ⟨_, ⟨[.insert 0 10 1, .insert 5 15 2, .build], rfl⟩, ?_⟩
  decide +kernel

end Mdds.SegTree
