import Verif.Packed.Props

/-!
# packed_trie_map: property C60

A copy of a packed map shows what the original shows.
-/
namespace Mdds.Packed
open Mdds.Trie

variable {V : Type}

/-- Two ascending lists with the same members are the same list. -/
theorem ascending_unique : (l m : List (Key × V)) → l.Pairwise (fun a b => a.1 < b.1) → m.Pairwise (fun a b => a.1 < b.1) →
    (∀ x, x ∈ l ↔ x ∈ m) → l = m
  | [], [], _, _, _ => rfl
  | [], b :: m, _, _, h => absurd ((h b).2 (by simp)) (by simp)
  | a :: l, [], _, _, h => absurd ((h a).1 (by simp)) (by simp)
  | a :: l, b :: m, hl, hm, h => by
    obtain ⟨hl1, hl2⟩ := List.pairwise_cons.1 hl
    obtain ⟨hm1, hm2⟩ := List.pairwise_cons.1 hm
    have irr : ∀ k : Key, ¬ k < k := fun k => List.lt_irrefl k
    have hab : a = b := by
      rcases List.mem_cons.1 ((h a).1 (by simp)) with e | e
      · exact e
      · rcases List.mem_cons.1 ((h b).2 (by simp)) with e' | e'
        · exact e'.symm
        · exact absurd (List.lt_trans (hm1 a e) (hl1 b e')) (irr _)
    subst hab
    rw [ascending_unique l m hl2 hm2 fun x => ?_]
    constructor
    · intro hx
      rcases List.mem_cons.1 ((h x).1 (by simp [hx])) with e | e
      · subst e; exact absurd (hl1 x hx) (irr _)
      · exact e
    · intro hx
      rcases List.mem_cons.1 ((h x).2 (by simp [hx])) with e | e
      · subst e; exact absurd (hm1 x hx) (irr _)
      · exact e

/-- Two packed maps that nobody can tell apart by looking up keys, by searching prefixes or by going through all
entries. -/
structure SameView (cap : Nat) (p q : Packed V) : Prop where
  size : pSize q = pSize p
  find : ∀ k, ∃ i j, pFind cap p k = .ok i ∧ pFind cap q k = .ok j ∧ pDeref q.vals j = pDeref p.vals i
  search : ∀ pre, ∃ l, ∃ n, ∀ fuel ≥ n, pIterateSearch cap fuel p pre = .ok l ∧ pIterateSearch cap fuel q pre = .ok l
  all : ∃ l, ∃ n, ∀ fuel ≥ n, pIterateAll cap fuel p = .ok l ∧ pIterateAll cap fuel q = .ok l

theorem sameView {cap : Nat} {t : Node V} {p q : Packed V} (h : Packs cap t p) (h' : Packs cap t q) : SameView cap p q where
  size := by rw [C21_size cap t p h, C21_size cap t q h']
  find k := by
    obtain ⟨a1, a2⟩ := C21_find cap t p h k
    obtain ⟨b1, b2⟩ := C21_find cap t q h' k
    cases hk : denote t k with
    | none =>
      obtain ⟨i, i1, -, i2⟩ := a2 hk
      obtain ⟨j, j1, -, j2⟩ := b2 hk
      exact ⟨i, j, i1, j1, by rw [i2, j2]⟩
    | some v =>
      obtain ⟨i, i1, i2⟩ := a1 v hk
      obtain ⟨j, j1, j2⟩ := b1 v hk
      exact ⟨i, j, i1, j1, by rw [i2, j2]⟩
  search pre := by
    obtain ⟨l, ⟨n, l1⟩, l2, l3⟩ := C21_prefix_search cap t p h pre
    obtain ⟨m, ⟨n', m1⟩, m2, m3⟩ := C21_prefix_search cap t q h' pre
    have e : l = m := ascending_unique l m l2 m2 fun x => (l3 x.1 x.2).trans (m3 x.1 x.2).symm
    subst e
    exact ⟨l, n + n', fun fuel hf => ⟨l1 fuel (by omega), m1 fuel (by omega)⟩⟩
  all := by
    obtain ⟨l, ⟨n, l1⟩, l2, l3⟩ := C21_iterate_nonempty_keys cap t p h
    obtain ⟨m, ⟨n', m1⟩, m2, m3⟩ := C21_iterate_nonempty_keys cap t q h'
    have e : l = m := ascending_unique l m l2 m2 fun x => (l3 x.1 x.2).trans (m3 x.1 x.2).symm
    subst e
    exact ⟨l, n + n', fun fuel hf => ⟨l1 fuel (by omega), m1 fuel (by omega)⟩⟩

/-- C60: copying a packed map, or a copy of one, succeeds and the copy shows what the original shows.  It is again the
packed form of the same trie, so everything C21 says holds of it. -/
theorem C60_copy (cap : Nat) (t : Node V) (p : Packed V) (h : Packs cap t p) :
    ∃ q, (∃ n, ∀ fuel ≥ n, copy cap fuel p = .ok q) ∧ SameView cap p q ∧ Packs cap t q := by
  obtain ⟨r, h0, h1, -, h3⟩ := h.form
  obtain ⟨q, e1, -, -, -, e5⟩ := copy_spec h0 h1 h3 (4 * cells t.kids + 1) (Nat.le_refl _)
  have hq : Packs cap t q := ⟨h.reach, .copied h.made e1, by rw [e5]; exact h.room, h.units⟩
  refine ⟨q, ⟨4 * cells t.kids + 1, fun fuel hf => ?_⟩, sameView h hq, hq⟩
  have := copy_mono e1 (fuel - (4 * cells t.kids + 1))
  rwa [show 4 * cells t.kids + 1 + (fuel - (4 * cells t.kids + 1)) = fuel by omega] at this

/-- C60: the same for assignment, whatever the target held before. -/
theorem C60_assign (cap : Nat) (t : Node V) (p old : Packed V) (h : Packs cap t p) :
    ∃ q, (∃ n, ∀ fuel ≥ n, assign cap fuel old p = .ok q) ∧ SameView cap p q := by
  obtain ⟨q, ⟨n, h1⟩, h2, -⟩ := C60_copy cap t p h
  exact ⟨q, ⟨n, fun fuel hf => by rw [assign, h1 fuel hf]; rfl⟩, h2⟩

/-- C60: the moved-to map shows what the original showed, the moved-from map is an empty one. -/
theorem C60_move (cap : Nat) (t : Node V) (p : Packed V) (h : Packs cap t p) :
    SameView cap p (move p).1 ∧ pSize (move p).2 = 0 ∧ ∀ k, ∃ it, pFind cap (move p).2 k = .ok it ∧ pDeref (move p).2.vals it = none :=
  ⟨sameView h h, rfl, fun _ => ⟨_, rfl, rfl⟩⟩

/-- C60: a copy compares equal to its original, in both directions.  Partial: when the empty key is not stored (see
`C58_eq_fails` for what comparison does with it). -/
theorem C60_equal_partial [DecidableEq V] (cap : Nat) (t : Node V) (p : Packed V) (h : Packs cap t p) (hne : denote t [] = none) :
    ∃ q, (∃ n, ∀ fuel ≥ n, copy cap fuel p = .ok q) ∧ ∃ n, ∀ fuel ≥ n, pEq cap fuel p q = .ok true ∧ pEq cap fuel q p = .ok true := by
  obtain ⟨q, h1, -, hq⟩ := C60_copy cap t p h
  obtain ⟨b, ⟨n, b1⟩, b2⟩ := C58_eq_partial cap t t p q h hq hne hne
  obtain ⟨c, ⟨m, c1⟩, c2⟩ := C58_eq_partial cap t t q p hq h hne hne
  have eb : b = true := b2.2 fun _ => rfl
  have ec : c = true := c2.2 fun _ => rfl
  subst eb ec
  exact ⟨q, h1, n + m, fun fuel hf => ⟨b1 fuel (by omega), c1 fuel (by omega)⟩⟩

/-- The packed form of a map with four entries, one of them the empty key; the copy numbers the values in another
order. -/
def exSource : Packed Nat := ⟨[13, 0, 0, 255, 2, 100, 2, 1, 2, 98, 4, 2, 0, 3, 4, 97, 6, 98, 2], [2, 1, 3, 0]⟩

example : pack 256 exAll = .ok exSource ∧ copy 256 20 exSource =
    .ok ⟨[13, 2, 0, 255, 2, 100, 2, 1, 2, 98, 4, 3, 0, 0, 4, 97, 6, 98, 2], [0, 1, 2, 3]⟩ := by decide

/-- Finding T4: the root of a default-constructed packed map says that its value is the first of no values.  Copying
such a map reads that value: undefined. -/
theorem C60_copy_default_fails (cap fuel : Nat) (hc : 2 ≤ cap) : copy cap fuel (defaultPacked : Packed V) = .ub := by
  have h : (0 : Nat) ≠ nullValue cap := by unfold nullValue; omega
  simp [copy, visit, defaultPacked, rd, h, Outcome.ofOption]

/-- The same for a map that was moved from. -/
theorem C60_copy_moved_fails (cap fuel : Nat) (hc : 2 ≤ cap) (p : Packed V) : copy cap fuel (move p).2 = .ub :=
  C60_copy_default_fails cap fuel hc

end Mdds.Packed
