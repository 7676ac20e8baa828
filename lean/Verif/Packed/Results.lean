import Verif.Packed.CopyProps

/-!
# packed_trie_map: results of prefix_search as objects (property C61)

`packed_search_results` holds a pointer to the value store, a pointer to a node and the prefix.  Here a pointer to a
value store is the store it points to (`none` for null); the node pointer goes into the buffer `pk` of the map that was
searched.
-/
namespace Mdds.Packed
open Mdds.Trie

variable {V : Type}

/-- `packed_search_results` (`itr.hpp` 738-757). -/
structure Results (V : Type) where
  store : Option (List V)
  node : Option Nat
  buf : Key
  deriving DecidableEq, Repr

/-- `prefix_search` (`tm.inl` 1566-1584) with the object it returns. -/
def searchResults (p : Packed V) (pre : Key) : Outcome (Results V) :=
  (pPrefixSearch p pre).bind fun n => .ok ⟨some p.vals, n, if p.vals.isEmpty then [] else pre⟩

/-- Copy constructor (`itr.hpp` 787-788): the pointer to the value store is not copied. -/
def Results.copy (r : Results V) : Results V := ⟨none, r.node, r.buf⟩

/-- Move constructor (`itr.hpp` 790-793): the new object. -/
def Results.move (r : Results V) : Results V := ⟨none, r.node, r.buf⟩

/-- `operator=` (`itr.hpp` 795-800) with `swap` (`itr.hpp` 774-778): the argument is copied, moved to a temporary, and
node and buffer are swapped; the target keeps its own pointer to a value store. -/
def Results.assign (target src : Results V) : Results V :=
  let tmp := src.copy.move
  ⟨target.store, tmp.node, tmp.buf⟩

/-- `for (it = begin(); it != end(); ++it) visit(*it)` from `it` on; `operator*` (`itr.hpp` 563-568) reads the value
store through the pointer. -/
def Results.loop (cap : Nat) (pk : List Nat) (store : Option (List V)) (fuel : Nat) : Nat → PIter → PIter → Outcome (List (Key × V))
  | 0, _, _ => .ub
  | n + 1, it, last =>
    if pIterEq it last then .ok []
    else match store with
      | none => .ub
      | some vals => match pDeref vals it with
        | none => .ub
        | some kv => (pInc cap pk fuel it).bind fun it' =>
          (Results.loop cap pk store fuel n it' last).bind fun l => .ok (kv :: l)

/-- Loop over the results; `begin` and `end` (`itr.hpp` 802-833). -/
def Results.iterate (cap fuel : Nat) (pk : List Nat) (r : Results V) : Outcome (List (Key × V)) :=
  match r.node with
  | none => .ok []
  | some n => (pSearchBegin cap fuel pk n r.buf).bind fun it =>
    (endAt cap pk n r.buf).bind fun last => Results.loop cap pk r.store fuel fuel it last

theorem loop_eq (cap : Nat) (p : Packed V) (fuel : Nat) : ∀ (n : Nat) (it last : PIter),
    Results.loop cap p.pk (some p.vals) fuel n it last = pCollect cap p fuel n it last := by
  intro n
  induction n with
  | zero => intro _ _; rfl
  | succ n ih =>
    intro it last
    simp only [Results.loop, pCollect]
    split
    · rfl
    · cases pDeref p.vals it with
      | none => rfl
      | some kv =>
        cases pInc cap p.pk fuel it with
        | ok x => simp only [obind_ok, ih]
        | err e => rfl
        | ub => rfl

/-- The returned object shows the entries with the prefix. -/
theorem C61_results (cap : Nat) (t : Node V) (p : Packed V) (h : Packs cap t p) (pre : Key) :
    ∃ r l, searchResults p pre = .ok r ∧ (∃ b, ∀ fuel ≥ b, r.iterate cap fuel p.pk = .ok l) ∧
      l.Pairwise (fun a b => a.1 < b.1) ∧ ∀ k v, (k, v) ∈ l ↔ pre <+: k ∧ denote t k = some v := by
  obtain ⟨l, ⟨b, h1⟩, h2, h3⟩ := C21_prefix_search cap t p h pre
  have hb := h1 b (Nat.le_refl _)
  unfold pIterateSearch at hb
  cases e : pPrefixSearch p pre with
  | err x => rw [e] at hb; cases hb
  | ub => rw [e] at hb; cases hb
  | ok n =>
    refine ⟨_, l, by simp only [searchResults, e, obind_ok]; rfl, ⟨b, fun fuel hf => ?_⟩, h2, h3⟩
    have := h1 fuel hf
    unfold pIterateSearch at this
    rw [e, obind_ok] at this
    cases n with
    | none => exact this
    | some n =>
      have hv : p.vals.isEmpty = false := by
        cases hv : p.vals.isEmpty with
        | false => rfl
        | true => simp [pPrefixSearch, hv] at e
      simp only [Results.iterate, loop_eq, hv, Bool.false_eq_true, if_false]
      exact this

theorem pLeftmost_kind {cap : Nat} {pk : List Nat} : ∀ (fuel : Nat) (st : List Item) (buf : Key) (it : PIter),
    pLeftmost cap pk fuel st buf = .ok it → it.kind = .normal := by
  intro fuel
  induction fuel with
  | zero => intro st buf it h; simp [pLeftmost] at h
  | succ f ih =>
    intro st buf it h
    cases st with
    | nil => simp [pLeftmost] at h
    | cons top st =>
      simp only [pLeftmost] at h
      cases e1 : rd pk top.node with
      | err x => simp [e1] at h
      | ub => simp [e1] at h
      | ok v =>
        simp only [e1, obind_ok] at h
        split at h
        · cases e2 : pushChild pk (top :: st) buf top.pos with
          | err x => simp [e2] at h
          | ub => simp [e2] at h
          | ok z => simp only [e2, obind_ok] at h; exact ih _ _ _ h
        · cases h; rfl

theorem rd_total (pk : List Nat) (i : Nat) : (∃ x, rd pk i = .ok x) ∨ rd pk i = .ub := by
  unfold rd
  cases pk[i]? with
  | none => exact Or.inr rfl
  | some x => exact Or.inl ⟨x, rfl⟩

theorem pLeftmost_noerr {cap : Nat} {pk : List Nat} : ∀ (fuel : Nat) (st : List Item) (buf : Key),
    (∃ it, pLeftmost cap pk fuel st buf = .ok it) ∨ pLeftmost cap pk fuel st buf = .ub := by
  intro fuel
  induction fuel with
  | zero => intro st buf; exact Or.inr rfl
  | succ f ih =>
    intro st buf
    cases st with
    | nil => exact Or.inr rfl
    | cons top st =>
      simp only [pLeftmost, pushChild]
      rcases rd_total pk top.node with ⟨v, e⟩ | e
      · simp only [e, obind_ok]
        split
        · rcases rd_total pk top.pos with ⟨c, e1⟩ | e1
          · rcases rd_total pk (top.pos + 1) with ⟨d, e2⟩ | e2
            · simp only [e1, e2, obind_ok]
              split
              · rcases rd_total pk (top.node - d + 1) with ⟨x, e3⟩ | e3
                · simp only [e3, obind_ok]; exact ih _ _
                · simp [e3]
              · simp
            · simp [e1, e2]
          · simp [e1]
        · simp
      · simp [e]

/-- A loop through a null pointer to the value store is undefined as soon as there is anything to show. -/
theorem iterate_null (cap fuel : Nat) (pk : List Nat) (n : Nat) (buf : Key) :
    (⟨none, some n, buf⟩ : Results V).iterate cap fuel pk = .ub := by
  simp only [Results.iterate]
  unfold pSearchBegin rootStack endAt
  rcases rd_total pk (n + 1) with ⟨idx, e⟩ | e
  · simp only [e, obind_ok]
    rcases pLeftmost_noerr (cap := cap) (pk := pk) fuel [⟨n, n + 2, n + 2 + idx⟩] buf with ⟨it, e1⟩ | e1
    · have hk := pLeftmost_kind _ _ _ _ e1
      simp only [e1, obind_ok]
      cases fuel with
      | zero => rfl
      | succ f => simp [Results.loop, pIterEq, hk]
    · simp [e1]
  · simp [e]

/-- Finding T7: a copy of the result of a search that found something cannot be iterated: undefined for every map,
every prefix that occurs, and likewise when the result is moved. -/
theorem C61_copy_fails (cap : Nat) (t : Node V) (p : Packed V) (h : Packs cap t p) (pre k : Key) (v : V) (hp : pre <+: k)
    (hk : denote t k = some v) (fuel : Nat) :
    ∃ r, searchResults p pre = .ok r ∧ r.copy.iterate cap fuel p.pk = .ub ∧ r.move.iterate cap fuel p.pk = .ub := by
  obtain ⟨r, l, h1, ⟨b, h2⟩, -, h4⟩ := C61_results cap t p h pre
  refine ⟨r, h1, ?_⟩
  have hl : (k, v) ∈ l := (h4 k v).2 ⟨hp, hk⟩
  cases hn : r.node with
  | none =>
    have := h2 b (Nat.le_refl _)
    simp only [Results.iterate, hn, Outcome.ok.injEq] at this
    rw [← this] at hl; simp at hl
  | some n =>
    simp only [Results.copy, Results.move, hn]
    exact ⟨iterate_null cap fuel p.pk n r.buf, iterate_null cap fuel p.pk n r.buf⟩

/-- What is left of the property: copies of empty results are empty, and assigning a result to a variable that holds a
result of the same map works.  Partial: see `C61_copy_fails` and `C61_assign_fails`. -/
theorem C61_values_partial (cap fuel : Nat) (p : Packed V) (pre pre' : Key) (r r' : Results V) (h : searchResults p pre = .ok r)
    (h' : searchResults p pre' = .ok r') :
    (r.node = none → r.copy.iterate cap fuel p.pk = .ok [] ∧ r.iterate cap fuel p.pk = .ok []) ∧
    (r'.assign r).iterate cap fuel p.pk = r.iterate cap fuel p.pk := by
  constructor
  · intro hn; simp [Results.iterate, Results.copy, hn]
  · have e : ∀ (q : Key) (z : Results V), searchResults p q = .ok z → z.store = some p.vals := by
      intro q z hz
      unfold searchResults at hz
      cases e : pPrefixSearch p q with
      | err x => rw [e] at hz; cases hz
      | ub => rw [e] at hz; cases hz
      | ok n => rw [e] at hz; cases hz; rfl
    have : r'.assign r = r := by
      cases r
      simp only [Results.assign, Results.copy, Results.move, e pre' r' h']
      rw [← e pre _ h]
    rw [this]

example : searchResults exSource [97] = .ok ⟨some [2, 1, 3, 0], some 7, [97]⟩ ∧
    (⟨some [2, 1, 3, 0], some 7, [97]⟩ : Results Nat).iterate 256 20 exSource.pk = .ok [([97], 1), ([97, 98, 100], 2)] ∧
    searchResults exSource [99] = .ok ⟨some [2, 1, 3, 0], none, [99]⟩ := by decide

/-- Assigned to a variable that holds a result of another map, the entries are shown with the values of the other
map. -/
theorem C61_assign_fails : ∃ (p q : Packed Nat) (r r' : Results Nat), pack 256 exAll = .ok p ∧
    pack 256 (run empty [.insert [1] 50, .insert [2] 60, .insert [3] 70]) = .ok q ∧
    searchResults p [97] = .ok r ∧ searchResults q [1] = .ok r' ∧
    r.iterate 256 20 p.pk = .ok [([97], 1), ([97, 98, 100], 2)] ∧
    (r'.assign r).iterate 256 20 p.pk = .ok [([97], 60), ([97, 98, 100], 50)] :=
  ⟨exSource, ⟨[7, 0, 0, 1, 0, 2, 0, 255, 6, 1, 6, 2, 4, 3, 2], [50, 60, 70]⟩, ⟨some [2, 1, 3, 0], some 7, [97]⟩,
    ⟨some [50, 60, 70], some 1, [1]⟩, by decide, by decide, by decide, by decide, by decide, by decide⟩

end Mdds.Packed
