import Verif.Packed.EntryLemmas
import Verif.Packed.Copy
import Verif.Trie.Props
import Mathlib.Data.List.Induction

/-!
# packed_trie_map: property C21

`cap` is the number of values of `pack_value_type`.  `Packs cap t p` says that packing succeeded and that
nothing was cut off: the buffer has at most `cap` cells and every key unit is below `cap`.
-/
namespace Mdds.Packed
open Mdds.Trie

variable {V : Type}

/-- `p` was made by packing `t`, or is a copy, or a copy of a copy, ... of such a map. -/
inductive Made (cap : Nat) (t : Node V) : Packed V → Prop
  | packed {p : Packed V} : pack cap t = .ok p → Made cap t p
  | copied {p q : Packed V} {fuel : Nat} : Made cap t p → copy cap fuel p = .ok q → Made cap t q

/-- `p` is the packed form of the reachable trie `t`, or a copy of it, and its numbers fit into cells. -/
structure Packs (cap : Nat) (t : Node V) (p : Packed V) : Prop where
  reach : Reachable t
  made : Made cap t p
  room : p.pk.length ≤ cap
  units : ∀ k, denote t k ≠ none → ∀ c ∈ k, c < cap

theorem unitsLt_of {cap : Nat} : (ks : Kids V) → ks.WF → (∀ q : Key, denote ⟨none, ks⟩ q ≠ none → ∀ c ∈ q, c < cap) → UnitsLt cap ks
  | .nil, _, _ => trivial
  | .cons c v k r, hw, h => by
    obtain ⟨hw1, hw2, hw3, hw4⟩ := hw
    have hchild : ∀ q : Key, denote (⟨v, k⟩ : Node V) q ≠ none → ∀ d ∈ c :: q, d < cap := by
      intro q hq
      apply h (c :: q)
      simpa [denote, Kids.find?] using hq
    refine ⟨?_, ?_, ?_⟩
    · obtain ⟨q, hq⟩ := alive_hasPrefix v k hw1 hw4
      exact hchild q hq c (by simp)
    · apply unitsLt_of k hw1
      intro q hq d hd
      cases q with
      | nil => simp at hd
      | cons e q =>
        apply hchild (e :: q) (by simpa [denote] using hq) d
        simp only [List.mem_cons] at hd ⊢
        exact Or.inr hd
    · apply unitsLt_of r hw2
      intro q hq
      apply h q
      cases q with
      | nil => exact hq
      | cons e q =>
        simp only [denote, Kids.find?] at hq ⊢
        by_cases he : c = e
        · subst he
          rw [Kids.find?_of_allGt hw3 c (Nat.le_refl _)] at hq
          simp at hq
        · rw [if_neg he]; exact hq

/-- A freshly packed map. -/
theorem pack_form {cap : Nat} {t : Node V} {p : Packed V} (hr : Reachable t) (hp : pack cap t = .ok p)
    (hroom : p.pk.length ≤ cap) (hunits : ∀ k, denote t k ≠ none → ∀ c ∈ k, c < cap) :
    ∃ r, p.pk[0]? = some r ∧ Form cap p r t ∧ p.vals.length = size t ∧ size t ≤ maxValuePos cap := by
  unfold pack at hp
  cases h1 : compactKids cap t.kids ⟨[0], []⟩ with
  | err e => rw [h1] at hp; cases hp
  | ub => rw [h1] at hp; cases hp
  | ok z =>
    obtain ⟨s1, offs⟩ := z
    rw [h1] at hp
    simp only at hp
    cases h2 : finishNode cap t.val offs s1 with
    | err e => rw [h2] at hp; cases hp
    | ub => rw [h2] at hp; cases hp
    | ok z =>
      obtain ⟨s2, off⟩ := z
      rw [h2] at hp
      simp only [Outcome.ok.injEq] at hp
      have hlen : p.pk.length = s2.pk.length := by rw [← hp]; simp
      obtain ⟨⟨x, e1⟩, ⟨y, f1, f2⟩, q⟩ := compactKids_spec t.kids _ _ _ h1
      obtain ⟨g1, g2, g3, g4⟩ := finishNode_ok h2
      have l1 : 1 ≤ s1.pk.length := by rw [e1]; simp
      have l2 : s1.pk.length ≤ s2.pk.length := by rw [g4]; simp
      have hu : UnitsLt cap t.kids := by
        apply unitsLt_of _ hr.wf
        intro q hq c hc
        cases q with
        | nil => simp at hc
        | cons d q => exact hunits (d :: q) (by simpa [denote] using hq) c hc
      have he := q (by simp) hu (by omega)
      obtain ⟨o1, o2⟩ := finishNode_enc l1 hu he h2 (by omega)
      have hlay := compactKids_lay t.kids _ _ _ h1 (by omega)
      obtain ⟨y1, y2⟩ := finishNode_lay hlay h2 (by omega)
      have hm : ∀ i x, 1 ≤ i → s2.pk[i]? = some x → p.pk[i]? = some x := by
        intro i x hi hx
        rw [← hp]
        simp only
        rw [List.getElem?_set_ne (by omega)]; exact hx
      have hsz : p.vals.length = size t := by
        rw [← hp]
        simp only
        rw [g2, f1]
        simp only [List.nil_append, List.length_append, f2, size]
        cases t.val <;> simp <;> omega
      refine ⟨off, ?_, ⟨?_, ?_⟩, hsz, ?_⟩
      · rw [← hp]
        simp only
        rw [List.getElem?_set_self (by omega), Nat.mod_eq_of_lt (by omega)]
      · have e : p.vals = s2.vals := by rw [← hp]
        rw [e]
        exact o2.mono hm fun i x hx => hx
      · exact y1.mono hm
      · rcases compactKids_ok (cap := cap) t.kids ⟨[0], []⟩ with ⟨-, c1⟩ | ⟨c1, -, -⟩
        · simp only [List.length_nil, Nat.zero_add] at c1
          unfold size
          cases hv : t.val with
          | none => simp; omega
          | some x =>
            have := g3 (by rw [hv]; rfl)
            rw [f1] at this
            simp [f2] at this ⊢
            omega
        · rw [h1] at c1; cases c1

/-- Offset of the root. -/
theorem Packs.form {cap : Nat} {t : Node V} {p : Packed V} (h : Packs cap t p) :
    ∃ r, p.pk[0]? = some r ∧ Form cap p r t ∧ p.vals.length = size t ∧ size t ≤ maxValuePos cap := by
  obtain ⟨hr, hm, hroom, hunits⟩ := h
  induction hm with
  | packed hp => exact pack_form hr hp hroom hunits
  | @copied p q fuel _ hc ih =>
    obtain ⟨r, h0, h1, -, h3⟩ := ih (by rw [← copy_length hc]; exact hroom)
    obtain ⟨q', e1, e2, e3, e4, -⟩ := copy_spec h0 h1 h3 (fuel + (4 * cells t.kids + 1)) (by omega)
    rw [copy_mono hc] at e1
    cases e1
    exact ⟨r, e2, e3, e4, h3⟩

theorem Packs.enc {cap : Nat} {t : Node V} {p : Packed V} (h : Packs cap t p) :
    ∃ r, p.pk[0]? = some r ∧ Enc cap p.pk p.vals r t ∧ p.vals.length = size t := by
  obtain ⟨r, h0, h1, h2, -⟩ := h.form
  exact ⟨r, h0, h1.enc, h2⟩

/-! ## when packing succeeds -/

/-- C21: packing succeeds, or throws `size_error` exactly when there are more values than `cap - 2`. -/
theorem C21_pack_or_throw (cap : Nat) (hc : 2 ≤ cap) (t : Node V) :
    ((∃ p, pack cap t = .ok p) ∧ size t ≤ cap - 2) ∨ (pack cap t = .err .size ∧ cap - 2 < size t) := by
  unfold pack
  have hm : maxValuePos cap = cap - 2 := by unfold maxValuePos nullValue; omega
  rcases compactKids_ok (cap := cap) t.kids ⟨[0], []⟩ with ⟨⟨s1, offs, h1⟩, c1⟩ | ⟨h1, c1, c2⟩
  · obtain ⟨-, ⟨y, f1, f2⟩, -⟩ := compactKids_spec t.kids _ _ _ h1
    have hl : s1.vals.length = t.kids.count := by rw [f1]; simp [f2]
    simp only [h1, finishNode]
    simp only [List.length_nil, Nat.zero_add] at c1
    cases hv : t.val with
    | none =>
      left
      refine ⟨⟨_, rfl⟩, ?_⟩
      simp [size, hv]; omega
    | some x =>
      simp only
      by_cases hh : maxValuePos cap ≤ s1.vals.length
      · right; rw [if_pos hh]; refine ⟨rfl, ?_⟩; simp [size, hv]; omega
      · left; rw [if_neg hh]; refine ⟨⟨_, rfl⟩, ?_⟩; simp [size, hv]; omega
  · right
    rw [h1]
    simp only [List.length_nil, Nat.zero_add] at c2
    refine ⟨rfl, ?_⟩
    simp [size]; omega

/-- The message of the exception promises one value more than is accepted (`tm.inl` 1134-1137: it names
`max_value_pos + 1 = cap - 1`). -/
theorem C21_limit_message_fails : ∃ (cap : Nat) (t : Node Nat), Reachable t ∧ size t = maxValuePos cap + 1 ∧
    pack cap t = .err .size :=
  ⟨4, run empty [.insert [1] 1, .insert [2] 2, .insert [3] 3], ⟨_, rfl⟩, by decide, by decide⟩

/-- Number of cells of the packed form. -/
theorem C21_cells (cap : Nat) (t : Node V) (p : Packed V) (h : pack cap t = .ok p) :
    p.pk.length = 3 + 2 * t.kids.length + cells t.kids := by
  unfold pack at h
  cases h1 : compactKids cap t.kids ⟨[0], []⟩ with
  | err e => rw [h1] at h; cases h
  | ub => rw [h1] at h; cases h
  | ok z =>
    obtain ⟨s1, offs⟩ := z
    rw [h1] at h
    simp only at h
    cases h2 : finishNode cap t.val offs s1 with
    | err e => rw [h2] at h; cases h
    | ub => rw [h2] at h; cases h
    | ok z =>
      obtain ⟨s2, off⟩ := z
      rw [h2] at h
      simp only [Outcome.ok.injEq] at h
      obtain ⟨a1, a2⟩ := compactKids_length t.kids _ _ _ h1
      obtain ⟨-, -, -, hp2⟩ := finishNode_ok h2
      have : s2.pk.length = s1.pk.length + 2 + 2 * offs.length := by
        rw [hp2]; simp only [List.length_append, List.length_cons, flatMap_pair_length]; omega
      rw [← h]
      simp only [List.length_set, List.length_singleton] at a1 ⊢
      omega

/-! ## lookup -/

theorem pEnd_eq {cap : Nat} {p : Packed V} {r : Nat} {t : Node V} (h0 : p.pk[0]? = some r) (he : Enc cap p.pk p.vals r t) :
    pEnd cap p = .ok ⟨[⟨r, r + 2 + 2 * t.kids.length, r + 2 + 2 * t.kids.length⟩], [], nullValue cap, .end_⟩ := by
  simp [pEnd, endAt, rd_of h0, rd_of he.head.size]

theorem size_eq_zero (t : Node V) (hr : Reachable t) (h : size t = 0) (k : Key) : denote t k = none := by
  obtain ⟨l, -, h2, h3⟩ := C17_size t hr
  cases hd : denote t k with
  | none => rfl
  | some v =>
    have := (h2 k v).2 hd
    rw [h] at h3
    rw [List.length_eq_zero_iff.1 h3.symm] at this
    simp at this

/-- Position of the iterator that `find` returns. -/
theorem pFind_at {cap : Nat} {t : Node V} {p : Packed V} (h : Packs cap t p) (k : Key) (v : V) (hk : denote t k = some v)
    {r : Nat} (h0 : p.pk[0]? = some r) (he : Enc cap p.pk p.vals r t) (hl : p.vals.length = size t) :
    ∃ pit i, pFind cap p k = .ok pit ∧ PAt cap p r t [] pit i ∧ pDeref p.vals pit = some (k, v) := by
  have hne : p.vals.isEmpty = false := by
    cases hv : p.vals with
    | nil =>
      rw [hv] at hl
      have := size_eq_zero t h.reach (by simpa using hl.symm) k
      rw [hk] at this; cases this
    | cons _ _ => rfl
  unfold pFind
  rw [hne]
  simp only [Bool.false_eq_true, if_false, rd_of h0, obind_ok]
  rcases findPath_spec (cap := cap) (vals := p.vals) k t r [] [] he h.reach.wf trivial with ⟨e1, e2⟩ | ⟨m, st', q, ist', e1, e2, e3, e4, e5⟩
  · rw [denote_findNode, e1] at hk; cases hk
  · rw [denote_findNode, e1] at hk
    simp only [Option.bind_some] at hk
    rw [e3]
    simp only [obind_ok]
    obtain ⟨i, g1, g2, g3⟩ := e4.head.vsome v hk
    obtain ⟨s', f1, f2, -, f4⟩ := findStack_found k t m e1 []
    rw [e2] at f1
    cases f1
    have hu : units st' = k := by rw [f2]; simp [units]
    rw [rd_of g1, obind_ok, if_neg g2, rdKeys_spec _ _ e5, obind_ok, hu]
    have hval := f4 t [] [] (.base 0)
    simp only [List.nil_append] at hval
    have hrel : Rel cap p ⟨(m, 0) :: st', k, .normal⟩ ⟨⟨q, q + 2, q + 2 + 2 * m.kids.length⟩ :: ist', k, i, .normal⟩ :=
      ⟨rfl, rfl, _, _, _, _, rfl, rfl, ⟨e4, rfl, rfl⟩, e5, fun _ => by rw [hk]; exact g3.symm⟩
    refine ⟨_, (beforeBelow st' k).length, rfl, ⟨_, ⟨rfl, m, st', rfl, hval, by rw [hk]; rfl, rfl⟩, hrel, ?_⟩, ?_⟩
    · -- bottom of the stack is the root
      exact (findPath_bot k r [] _ e3).trans (by simp)
    · rw [hrel.deref]
      simp [Trie.deref, hk]

/-- C21: lookup in the packed form: exactly the stored value for a stored key, `end()` for any other key. -/
theorem C21_find (cap : Nat) (t : Node V) (p : Packed V) (h : Packs cap t p) (k : Key) :
    (∀ v, denote t k = some v → ∃ it, pFind cap p k = .ok it ∧ pDeref p.vals it = some (k, v)) ∧
    (denote t k = none → ∃ it, pFind cap p k = .ok it ∧ pEnd cap p = .ok it ∧ pDeref p.vals it = none) := by
  obtain ⟨r, h0, he, hl⟩ := h.enc
  refine ⟨fun v hk => ?_, fun hk => ?_⟩
  · obtain ⟨pit, i, h1, -, h3⟩ := pFind_at h k v hk h0 he hl
    exact ⟨pit, h1, h3⟩
  · have hend := pEnd_eq h0 he
    refine ⟨_, ?_, hend, rfl⟩
    unfold pFind
    by_cases hv : p.vals.isEmpty = true
    · rw [if_pos hv]; exact hend
    rw [if_neg hv, rd_of h0, obind_ok]
    rcases findPath_spec (cap := cap) (vals := p.vals) k t r [] [] he h.reach.wf trivial with ⟨e1, e2⟩ | ⟨m, st', q, ist', e1, e2, e3, e4, e5⟩
    · rw [e2]; exact hend
    · rw [denote_findNode, e1] at hk
      simp only [Option.bind_some] at hk
      rw [e3]
      simp only [obind_ok]
      rw [rd_of (e4.head.vnone hk), obind_ok, if_pos rfl]
      exact hend

/-! ## comparison of search results -/

/-- The node at `q` is reached from the node at `off` with the units of the key. -/
def Leads (pk : List Nat) : Key → Node V → Nat → Nat → Prop
  | [], _, off, q => q = off
  | c :: k, n, off, q => ∃ i ch d, n.kids.get? i = some (c, ch) ∧ pk[off + 2 + 2 * i + 1]? = some d ∧ Leads pk k ch (off - d) q

theorem findPath_leads {cap : Nat} {pk : List Nat} {vals : List V} (k : Key) (n : Node V) (p : Nat) (ist : List Item)
    (he : Enc cap pk vals p n) (hw : n.kids.WF) {y : Item} {ys : List Item} (h : findPath pk k p ist = .ok (some (y :: ys))) :
    Leads pk k n p y.node := by
  induction k generalizing n p ist with
  | nil =>
    simp only [findPath, rd_of he.head.size, obind_ok, Outcome.ok.injEq, Option.some.injEq, List.cons.injEq] at h
    rw [← h.1]; rfl
  | cons c k ih =>
    simp only [findPath, rd_of he.head.size, obind_ok, show 2 * n.kids.length / 2 = n.kids.length by omega] at h
    by_cases h0 : n.kids.length = 0
    · rw [if_pos h0] at h; cases h
    rw [if_neg h0, findChild_spec he.kids hw c n.kids.length 0 (n.kids.length - 1) (by omega) (by omega) (by omega)
      (fun j m hj => ⟨by omega, by have := Kids.get?_lt hj; omega⟩)] at h
    simp only [obind_ok] at h
    rcases Kids.idxOf?_spec (c := c) n.kids with ⟨h1, h2⟩ | ⟨i, ch, h1, h2, h3⟩
    · simp [h1] at h
    · obtain ⟨d, g1, g2, g3, g4⟩ := he.kids.get h2
      rw [Nat.zero_add] at g1 g2
      simp only [h1, Option.map_some, rd_of g2, obind_ok, if_pos g3] at h
      exact ⟨i, ch, d, h2, g2, ih ch (p - d) _ g4 (Kids.get?_wf hw h2).1 h⟩

theorem lay_get {pk : List Nat} {off c : Nat} {n : Node V} : (ks : Kids V) → {j i lo : Nat} → Lay pk off j lo ks →
    ks.get? i = some (c, n) → ∃ d lo', pk[off + 2 + 2 * (j + i) + 1]? = some d ∧ off - d + 2 ≤ off ∧ lo ≤ lo' ∧
      Lay pk (off - d) 0 lo' n.kids
  | .nil, _, _, _, _, h => by simp [Kids.get?] at h
  | .cons _ v k r, j, 0, lo, ⟨d, h1, h2, h3, h4, h5, h6⟩, h => by
    simp only [Kids.get?, Option.some.injEq, Prod.mk.injEq] at h
    obtain ⟨-, rfl⟩ := h
    exact ⟨d, lo, h1, by omega, Nat.le_refl _, h5⟩
  | .cons _ v k r, j, i + 1, lo, ⟨d, h1, h2, h3, h4, h5, h6⟩, h => by
    obtain ⟨d', lo', g1, g2, g3, g4⟩ := lay_get r h6 (show r.get? i = some (c, n) from h)
    exact ⟨d', lo', by rw [show j + (i + 1) = j + 1 + i by omega]; exact g1, g2, by omega, g4⟩

/-- The subtree of an earlier child lies before the subtree of a later one. -/
theorem lay_get2 {pk : List Nat} {off c c' : Nat} {n n' : Node V} : (ks : Kids V) → {j i i' lo : Nat} → Lay pk off j lo ks → i < i' →
    ks.get? i = some (c, n) → ks.get? i' = some (c', n') → ∃ d d' lo', pk[off + 2 + 2 * (j + i) + 1]? = some d ∧
      pk[off + 2 + 2 * (j + i') + 1]? = some d' ∧ (∃ lo1, Lay pk (off - d) 0 lo1 n.kids) ∧ Lay pk (off - d') 0 lo' n'.kids ∧ off - d < lo'
  | .nil, _, _, _, _, _, _, h, _ => by simp [Kids.get?] at h
  | .cons _ v k r, j, 0, i' + 1, lo, ⟨d, h1, h2, h3, h4, h5, h6⟩, _, h, h' => by
    simp only [Kids.get?, Option.some.injEq, Prod.mk.injEq] at h
    obtain ⟨-, rfl⟩ := h
    obtain ⟨d', lo', g1, g2, g3, g4⟩ := lay_get r h6 (show r.get? i' = some (c', n') from h')
    exact ⟨d, d', lo', h1, by rw [show j + (i' + 1) = j + 1 + i' by omega]; exact g1, ⟨lo, h5⟩, g4, by omega⟩
  | .cons _ v k r, j, i + 1, i' + 1, lo, ⟨d, h1, h2, h3, h4, h5, h6⟩, hlt, h, h' => by
    obtain ⟨d1, d2, lo', g1, g2, g3⟩ := lay_get2 r h6 (by omega : i < i') (show r.get? i = some (c, n) from h)
      (show r.get? i' = some (c', n') from h')
    exact ⟨d1, d2, lo', by rw [show j + (i + 1) = j + 1 + i by omega]; exact g1,
      by rw [show j + (i' + 1) = j + 1 + i' by omega]; exact g2, g3⟩
  | .cons _ _ _ _, _, _, 0, _, _, hlt, _, _ => by omega

theorem leads_range {pk : List Nat} : (k : Key) → (n : Node V) → (off lo q : Nat) → Lay pk off 0 lo n.kids → Leads pk k n off q →
    lo ≤ q ∧ q ≤ off
  | [], n, off, lo, q, hl, h => by cases h; exact ⟨hl.le, Nat.le_refl _⟩
  | c :: k, n, off, lo, q, hl, ⟨i, ch, d, h1, h2, h3⟩ => by
    obtain ⟨d', lo', g1, g2, g3, g4⟩ := lay_get _ hl h1
    rw [Nat.zero_add, h2] at g1
    cases g1
    have := leads_range k ch _ _ _ g4 h3
    omega

/-- Different keys lead to different nodes. -/
theorem leads_inj {pk : List Nat} : (k k' : Key) → (n : Node V) → (off lo q : Nat) → Lay pk off 0 lo n.kids → Leads pk k n off q →
    Leads pk k' n off q → k = k'
  | [], [], _, _, _, _, _, _, _ => rfl
  | [], c :: k, n, off, lo, q, hl, h, ⟨i, ch, d, h1, h2, h3⟩ => by
    cases h
    obtain ⟨d', lo', g1, g2, g3, g4⟩ := lay_get _ hl h1
    rw [Nat.zero_add, h2] at g1
    cases g1
    have := leads_range k ch _ _ _ g4 h3
    omega
  | c :: k, [], n, off, lo, q, hl, ⟨i, ch, d, h1, h2, h3⟩, h => by
    cases h
    obtain ⟨d', lo', g1, g2, g3, g4⟩ := lay_get _ hl h1
    rw [Nat.zero_add, h2] at g1
    cases g1
    have := leads_range k ch _ _ _ g4 h3
    omega
  | c :: k, c' :: k', n, off, lo, q, hl, ⟨i, ch, d, h1, h2, h3⟩, ⟨i', ch', d', h1', h2', h3'⟩ => by
    rcases Nat.lt_trichotomy i i' with hi | hi | hi
    · obtain ⟨e, e', lo', g1, g2, ⟨lo1, g3⟩, g4, g5⟩ := lay_get2 _ hl hi h1 h1'
      rw [Nat.zero_add, h2] at g1
      rw [Nat.zero_add, h2'] at g2
      cases g1; cases g2
      have a := leads_range k ch _ _ _ g3 h3
      have b := leads_range k' ch' _ _ _ g4 h3'
      omega
    · subst hi
      rw [h1] at h1'
      cases h1'
      rw [h2] at h2'
      cases h2'
      obtain ⟨e, lo', g1, g2, g3, g4⟩ := lay_get _ hl h1
      rw [Nat.zero_add, h2] at g1
      cases g1
      rw [leads_inj k k' ch _ _ _ g4 h3 h3']
    · obtain ⟨e, e', lo', g1, g2, ⟨lo1, g3⟩, g4, g5⟩ := lay_get2 _ hl hi h1' h1
      rw [Nat.zero_add, h2'] at g1
      rw [Nat.zero_add, h2] at g2
      cases g1; cases g2
      have a := leads_range k' ch' _ _ _ g3 h3'
      have b := leads_range k ch _ _ _ g4 h3
      omega

theorem pFind_leads {cap : Nat} {t : Node V} {p : Packed V} (h : Packs cap t p) {r : Nat} (h0 : p.pk[0]? = some r)
    (he : Enc cap p.pk p.vals r t) {k : Key} {it : PIter} (hf : pFind cap p k = .ok it) (hk : denote t k ≠ none) :
    ∃ y ys, it.stack = y :: ys ∧ Leads p.pk k t r y.node ∧ it.kind = .normal := by
  obtain ⟨v, hv⟩ := Option.ne_none_iff_exists'.1 hk
  obtain ⟨pit, h1, h2⟩ := (C21_find cap t p h k).1 v hv
  rw [hf] at h1
  cases h1
  have hkind : it.kind = .normal := by
    unfold pDeref at h2
    split at h2
    · assumption
    · cases h2
  unfold pFind at hf
  have hend := pEnd_eq h0 he
  have notEnd : pEnd cap p ≠ .ok it := by
    intro hc
    rw [hend] at hc
    cases hc
    cases hkind
  split at hf
  · exact absurd hf notEnd
  · simp only [rd_of h0, obind_ok] at hf
    rcases findPath_spec (cap := cap) (vals := p.vals) k t r [] [] he h.reach.wf trivial with ⟨e1, e2⟩ | ⟨m, st', q, ist', e1, e2, e3, e4, e5⟩
    · rw [e2] at hf; exact absurd hf notEnd
    · have hl := findPath_leads k t r [] he h.reach.wf e3
      rw [e3] at hf
      simp only [obind_ok] at hf
      cases hr : rd p.pk q with
      | err e => simp [hr] at hf
      | ub => simp [hr] at hf
      | ok w =>
        simp only [hr, obind_ok] at hf
        split at hf
        · exact absurd hf notEnd
        · rw [rdKeys_spec _ _ e5, obind_ok] at hf
          cases hf
          exact ⟨_, _, rfl, hl, rfl⟩

/-- C21: iterators that `find` returns for stored keys are equal exactly when the keys are equal, and none of them equals the end. -/
theorem C21_find_eq (cap : Nat) (t : Node V) (p : Packed V) (h : Packs cap t p) (k k' : Key) (hk : denote t k ≠ none)
    (hk' : denote t k' ≠ none) : ∃ a b e, pFind cap p k = .ok a ∧ pFind cap p k' = .ok b ∧ pEnd cap p = .ok e ∧
      (pIterEq a b = true ↔ k = k') ∧ pIterEq a e = false := by
  obtain ⟨r, h0, hform, -⟩ := h.form
  obtain ⟨v, hv⟩ := Option.ne_none_iff_exists'.1 hk
  obtain ⟨v', hv'⟩ := Option.ne_none_iff_exists'.1 hk'
  obtain ⟨a, ha, -⟩ := (C21_find cap t p h k).1 v hv
  obtain ⟨b, hb, -⟩ := (C21_find cap t p h k').1 v' hv'
  obtain ⟨y, ys, e1, e2, e3⟩ := pFind_leads h h0 hform.enc ha hk
  obtain ⟨y', ys', f1, f2, f3⟩ := pFind_leads h h0 hform.enc hb hk'
  refine ⟨a, b, _, ha, hb, pEnd_eq h0 hform.enc, ⟨fun heq => ?_, fun heq => ?_⟩, by simp [pIterEq, e3]⟩
  · simp only [pIterEq, e1, f1, e3, f3, decide_true, reduceCtorEq, decide_false, Bool.false_or, Bool.true_and, List.head?_cons,
      Option.some.injEq, decide_eq_true_eq] at heq
    rw [heq] at e2
    exact leads_inj k k' t r 1 _ hform.lay e2 f2
  · subst heq
    rw [ha] at hb
    cases hb
    simp [pIterEq]

/-- C21: `size()`. -/
theorem C21_size (cap : Nat) (t : Node V) (p : Packed V) (h : Packs cap t p) : pSize p = size t := by
  obtain ⟨r, -, -, hl⟩ := h.enc
  exact hl

/-- C21: walking node by node from the root (`root_node().child(c1).child(c2)...`). -/
def pWalk (pk : List Nat) : Key → Nat → Outcome (Option Nat)
  | [], p => .ok (some p)
  | c :: k, p => (pChild pk p c).bind fun r => match r with | none => .ok none | some q => pWalk pk k q

theorem pWalk_enc {cap : Nat} {p : Packed V} : ∀ (k : Key) (r : Nat) (n : Node V), Enc cap p.pk p.vals r n → n.kids.WF →
    (findNode k n = none ∧ pWalk p.pk k r = .ok none) ∨
    ∃ m q, findNode k n = some m ∧ pWalk p.pk k r = .ok (some q) ∧ Enc cap p.pk p.vals q m := by
  intro k
  induction k with
  | nil => intro r n he _; exact Or.inr ⟨n, r, rfl, rfl, he⟩
  | cons c k ih =>
    intro r n he hw
    simp only [pWalk, pChild, rd_of he.head.size, obind_ok]
    by_cases hz : n.kids.length = 0
    · left
      rw [if_pos (by omega)]
      have : n.kids = .nil := by
        cases hk : n.kids with
        | nil => rfl
        | cons a b d e => rw [hk] at hz; simp [Kids.length] at hz
      exact ⟨by simp [findNode, this, Kids.find?], rfl⟩
    rw [if_neg (by omega), show 2 * n.kids.length / 2 = n.kids.length by omega,
      findChild_spec he.kids hw c n.kids.length 0 (n.kids.length - 1) (by omega) (by omega) (by omega)
      (fun j m hj => ⟨by omega, by have := Kids.get?_lt hj; omega⟩)]
    simp only [obind_ok]
    rcases Kids.idxOf?_spec (c := c) n.kids with ⟨h1, h2⟩ | ⟨i, ch, h1, h2, h3⟩
    · left; simp [h1, h2, findNode]
    · obtain ⟨d, g1, g2, g3, g4⟩ := he.kids.get h2
      rw [Nat.zero_add] at g2
      simp only [h1, Option.map_some, rd_of g2, obind_ok, if_pos g3]
      simp only [findNode, h3]
      exact ih _ _ g4 (Kids.get?_wf hw h2).1

theorem C21_node_walk (cap : Nat) (t : Node V) (p : Packed V) (h : Packs cap t p) (k : Key) :
    ∃ r, rd p.pk 0 = .ok r ∧
      ((∃ q, pWalk p.pk k r = .ok (some q)) ↔ (findNode k t).isSome) ∧
      (findNode k t = none → pWalk p.pk k r = .ok none) ∧
      (∀ q, pWalk p.pk k r = .ok (some q) → ∃ i, rd p.pk q = .ok i ∧
        (denote t k = if i = nullValue cap then none else p.vals[i]?)) := by
  obtain ⟨r, h0, he, hl⟩ := h.enc
  refine ⟨r, rd_of h0, ?_⟩
  rcases pWalk_enc k r t he h.reach.wf with ⟨h1, h2⟩ | ⟨m, q, h1, h2, h3⟩
  · refine ⟨by simp [h1, h2], fun _ => h2, ?_⟩
    intro q hq; rw [h2] at hq; cases hq
  · refine ⟨by simp [h1, h2], fun hh => (by rw [h1] at hh; cases hh), ?_⟩
    intro q' hq
    rw [h2] at hq
    cases hq
    have hd : denote t k = m.val := by rw [denote_findNode, h1]; rfl
    rcases h3.head.rd_val with ⟨v1, v2⟩ | ⟨w, v1, v2, v3, v4⟩
    · exact ⟨_, v2, by rw [if_pos rfl, hd, v1]⟩
    · exact ⟨_, v2, by rw [if_neg v3, hd, v4]⟩

/-! ## iteration -/

theorem mem_entN_nil (t : Node V) (hw : t.kids.WF) (k : Key) (v : V) : (k, v) ∈ entN [] t ↔ denote t k = some v := by
  rw [mem_entN t [] hw (k, v)]
  simp

/-- C21: the loop over `prefix_search(pre)` in the packed form ends and visits exactly the entries of the
source whose key starts with `pre`, each once, in ascending order. -/
theorem C21_prefix_search (cap : Nat) (t : Node V) (p : Packed V) (h : Packs cap t p) (pre : Key) :
    ∃ l : List (Key × V), (∃ b, ∀ fuel ≥ b, pIterateSearch cap fuel p pre = .ok l) ∧
      l.Pairwise (fun a b => a.1 < b.1) ∧ ∀ k v, (k, v) ∈ l ↔ pre <+: k ∧ denote t k = some v := by
  obtain ⟨r, h0, he, hl⟩ := h.enc
  by_cases hv : p.vals.isEmpty = true
  · refine ⟨[], ⟨0, fun fuel _ => by simp [pIterateSearch, pPrefixSearch, hv]⟩, List.Pairwise.nil, ?_⟩
    intro k v
    have hs : size t = 0 := by rw [← hl]; simpa using hv
    rw [size_eq_zero t h.reach hs k]
    simp
  have hv' : p.vals.isEmpty = false := by simpa using hv
  have hpos : 0 < size t := by
    rw [← hl]
    cases hvv : p.vals with
    | nil => rw [hvv] at hv'; simp at hv'
    | cons _ _ => simp
  rcases findPath_spec (cap := cap) (vals := p.vals) pre t r [] [] he h.reach.wf trivial with ⟨e1, e2⟩ | ⟨m, st', q, ist', e1, e2, e3, e4, e5⟩
  · refine ⟨[], ⟨0, fun fuel _ => ?_⟩, List.Pairwise.nil, ?_⟩
    · simp [pIterateSearch, pPrefixSearch, hv', rd_of h0, e2]
    · intro k v
      simp only [List.not_mem_nil, false_iff]
      rintro ⟨⟨s, rfl⟩, hd⟩
      rw [denote_findNode, findNode_append, e1] at hd
      cases hd
  · have hmw := findNode_wf pre t m h.reach.wf e1
    have hal : m.Alive := by
      by_cases hp : pre = []
      · subst hp
        cases e1
        by_contra hna
        unfold Node.Alive at hna
        push Not at hna
        have : size t = 0 := by
          rw [← length_entN t []]
          unfold entN
          have hvn : t.val = none := by cases hvv : t.val with
            | none => rfl
            | some x => rw [hvv] at hna; simp at hna
          rw [hvn, hna.2]; rfl
        omega
      · obtain ⟨s, hs⟩ := (findNode_isSome_iff pre t h.reach.wf hp).1 (by rw [e1]; rfl)
        rw [denote_findNode, findNode_append, e1] at hs
        simp only [Option.bind_some] at hs
        by_contra hna
        unfold Node.Alive at hna
        push Not at hna
        apply hs
        cases s with
        | nil =>
          simp only [findNode, Option.bind_some]
          cases hvv : m.val with
          | none => rfl
          | some x => rw [hvv] at hna; simp at hna
        | cons c s => simp [findNode, hna.2, Kids.find?]
    have hkw : m.kids.WF := by exact hmw.1
    obtain ⟨it, b1, b2⟩ := searchBegin_spec m pre hkw hal
    obtain ⟨pit, c1, c2⟩ := pLeftmost_spec (cap := cap) (p := p) m.val m.kids [] [] pre it ⟨q, q + 2, q + 2 + 2 * m.kids.length⟩ b1
      ⟨e4, rfl, rfl⟩ trivial
    refine ⟨entN pre m, ⟨m.kids.nodes + (entN pre m).length + 1, fun fuel hf => ?_⟩, asc_entN pre m hkw, ?_⟩
    · simp only [pIterateSearch, pPrefixSearch, hv', Bool.false_eq_true, if_false, rd_of h0, obind_ok, e3, pSearchBegin, rootStack,
        rd_of e4.head.size, endAt]
      have hc := c1 fuel (by omega)
      rw [hc, obind_ok]
      rw [pCollect_spec (r := q) (root := m) (pre := pre) (pre' := pre) fuel fuel pit _ 0
        ⟨it, b2, c2, (pLeftmost_bot _ _ _ _ hc).trans rfl⟩ ⟨rfl, rfl, rfl⟩ (by omega) (by omega)]
      rfl
    · intro k v
      rw [mem_entN m pre hkw (k, v)]
      constructor
      · rintro ⟨s, rfl, hd⟩
        refine ⟨⟨s, rfl⟩, ?_⟩
        rw [denote_findNode, findNode_append, e1, Option.bind_some, ← denote_findNode]
        exact hd
      · rintro ⟨⟨s, rfl⟩, hd⟩
        refine ⟨s, rfl, ?_⟩
        rw [denote_findNode, findNode_append, e1, Option.bind_some, ← denote_findNode] at hd
        exact hd

/-- `begin()`: the first entry with a non-empty key. -/
theorem pBegin_at {cap : Nat} {t : Node V} {p : Packed V} (hw : t.kids.WF) {r : Nat} (h0 : p.pk[0]? = some r)
    (he : Enc cap p.pk p.vals r t) :
    (t.kids = .nil ∧ ∃ pit, (∀ fuel, pBegin cap fuel p = .ok pit) ∧ IsEnd r t [] pit) ∨
    (t.kids ≠ .nil ∧ ∃ pit, (∀ fuel, t.kids.nodes < fuel → pBegin cap fuel p = .ok pit) ∧
      PAt cap p r t [] pit (optEntry [] t.val).length) := by
  rcases begin_spec t hw with ⟨b1, -⟩ | ⟨b1, it, b2, b3⟩
  · left
    refine ⟨b1, ⟨[⟨r, r + 2, r + 2⟩], [], nullValue cap, .end_⟩, ?_, ?_⟩
    · intro fuel
      simp [pBegin, rd_of h0, rootStack, rd_of he.head.size, b1, Kids.length]
    · exact ⟨by simp [b1, Kids.length], rfl, rfl⟩
  · right
    refine ⟨b1, ?_⟩
    cases hk : t.kids with
    | nil => exact absurd hk b1
    | cons c v k rr =>
      simp only [begin_, hk] at b2
      obtain ⟨q, e1, e2⟩ := pushChild_spec (pk := p.pk) (x := (t, 0)) (y := ⟨r, r + 2, r + 2 + 2 * t.kids.length⟩) (c := c) (n := ⟨v, k⟩)
        [] [] (r + 2) 0 he (by rw [hk]; rfl) rfl
      obtain ⟨pit, c1, c2⟩ := pLeftmost_spec (cap := cap) (p := p) v k [(t, 0)] [⟨r, r + 2, r + 2 + 2 * t.kids.length⟩] [c] it
        ⟨q, q + 2, q + 2 + 2 * k.length⟩ b2 ⟨e2, rfl, rfl⟩ ⟨⟨he, rfl, rfl⟩, by simp [hk, Kids.length], trivial⟩
      refine ⟨pit, ?_, it, b3, c2, ?_⟩
      · intro fuel hf
        simp only [Kids.nodes] at hf
        simp only [pBegin, rd_of h0, rootStack, rd_of he.head.size, obind_ok]
        rw [if_neg (by rw [hk]; simp [Kids.length]), e1]
        simp only [obind_ok]
        exact c1 fuel (by omega)
      · have := pLeftmost_bot _ _ _ _ (c1 (k.nodes + 1) (by omega))
        rw [this]; rfl

/-- C21: the loop from `begin()` to `end()` visits exactly the entries with a non-empty key, each once, in
ascending order. -/
theorem C21_iterate_nonempty_keys (cap : Nat) (t : Node V) (p : Packed V) (h : Packs cap t p) :
    ∃ l : List (Key × V), (∃ b, ∀ fuel ≥ b, pIterateAll cap fuel p = .ok l) ∧
      l.Pairwise (fun a b => a.1 < b.1) ∧ ∀ k v, (k, v) ∈ l ↔ k ≠ [] ∧ denote t k = some v := by
  obtain ⟨r, h0, he, hl⟩ := h.enc
  have hw := h.reach.wf
  have hdrop : (entN [] t).drop (optEntry [] t.val).length = entK [] t.kids := by
    unfold entN; rw [List.drop_left]
  refine ⟨entK [] t.kids, ⟨t.kids.nodes + (entN [] t).length + 1, ?_⟩, asc_entK _ _ hw, ?_⟩
  · intro fuel hf
    unfold pIterateAll
    rw [pEnd_eq h0 he]
    rcases pBegin_at hw h0 he with ⟨b1, pit, b2, b3⟩ | ⟨b1, pit, b2, b3⟩
    · rw [b2, obind_ok, obind_ok, b1]
      obtain ⟨f, rfl⟩ : ∃ f, fuel = f + 1 := ⟨fuel - 1, by omega⟩
      unfold pCollect
      rw [show pIterEq pit _ = true by simp [pIterEq, b3.1, b3.2.2, b1]]
      simp [entK]
    · rw [b2 fuel (by omega), obind_ok, obind_ok]
      rw [pCollect_spec (pre := []) (pre' := []) fuel fuel pit _ _ b3 ⟨rfl, rfl, rfl⟩ (by omega) (by omega), hdrop]
  · intro k v
    rw [mem_entK t.kids [] hw (k, v)]
    constructor
    · rintro ⟨c, q, n, e1, e2, e3⟩
      simp only [List.nil_append] at e1
      subst e1
      refine ⟨by simp, ?_⟩
      simp only [denote, e2]; exact e3
    · rintro ⟨hk, hd⟩
      cases k with
      | nil => exact absurd rfl hk
      | cons c q =>
        simp only [denote] at hd
        cases hf : t.kids.find? c with
        | none => rw [hf] at hd; cases hd
        | some n => rw [hf] at hd; exact ⟨c, q, n, rfl, hf, hd⟩

/-- C21: packed form and source are visited in the same order with the same entries. -/
theorem C21_same_order (cap : Nat) (t : Node V) (p : Packed V) (h : Packs cap t p) :
    ∃ b, ∀ fuel ≥ b, pIterateAll cap fuel p = iterateAll fuel t := by
  obtain ⟨l1, ⟨b1, h1⟩, h2, h3⟩ := C21_iterate_nonempty_keys cap t p h
  obtain ⟨l2, ⟨b2, g1⟩, g2, g3⟩ := C19_iterate_nonempty_keys t h.reach
  refine ⟨max b1 b2, fun fuel hf => ?_⟩
  rw [h1 fuel (by omega), g1 fuel (by omega)]
  congr 1
  have hperm : l1.Perm l2 := by
    apply (List.perm_ext_iff_of_nodup ?_ ?_).2
    · rintro ⟨k, v⟩; rw [h3, g3]
    · exact h2.imp (fun hab he => by subst he; exact List.lt_irrefl _ hab)
    · exact g2.imp (fun hab he => by subst he; exact List.lt_irrefl _ hab)
  exact hperm.eq_of_pairwise (fun a b _ _ h1 h2 => absurd (List.lt_trans h1 h2) (List.lt_irrefl _)) h2 g2

/-- C21 holds in full for maps without the empty key. Missing for the full property: `begin()` skips the
entry of the empty key (`C21_iterate_fails`). -/
theorem C21_iterate_partial (cap : Nat) (t : Node V) (p : Packed V) (h : Packs cap t p) (hne : denote t [] = none) :
    ∃ l : List (Key × V), (∃ b, ∀ fuel ≥ b, pIterateAll cap fuel p = .ok l) ∧
      l.Pairwise (fun a b => a.1 < b.1) ∧ ∀ k v, (k, v) ∈ l ↔ denote t k = some v := by
  obtain ⟨l, h1, h2, h3⟩ := C21_iterate_nonempty_keys cap t p h
  refine ⟨l, h1, h2, fun k v => (h3 k v).trans ⟨fun hh => hh.2, fun hh => ⟨?_, hh⟩⟩⟩
  rintro rfl
  rw [hne] at hh; cases hh

/-- C21: iteration can be continued from the result of `find`. -/
theorem C21_find_continues (cap : Nat) (t : Node V) (p : Packed V) (h : Packs cap t p) (k : Key) (v : V) (hk : denote t k = some v) :
    ∃ it last, pFind cap p k = .ok it ∧ pEnd cap p = .ok last ∧
    ∃ l : List (Key × V), (∃ b, ∀ fuel ≥ b, pCollect cap p fuel fuel it last = .ok ((k, v) :: l)) ∧
      ((k, v) :: l).Pairwise (fun a b => a.1 < b.1) ∧ ∀ k' v', (k', v') ∈ (k, v) :: l ↔ k ≤ k' ∧ denote t k' = some v' := by
  obtain ⟨r, h0, he, hl⟩ := h.enc
  obtain ⟨pit, i, h1, h2, h3⟩ := pFind_at h k v hk h0 he hl
  obtain ⟨e, h4, h5⟩ := h2.lt
  rw [h3] at h5
  cases h5
  obtain ⟨hlt, hge⟩ := List.getElem?_eq_some_iff.1 h4
  have hasc := asc_entN [] t h.reach.wf
  have hdrop : (entN [] t).drop i = (k, v) :: (entN [] t).drop (i + 1) := by
    rw [List.drop_eq_getElem_cons hlt, hge]
  refine ⟨pit, _, h1, pEnd_eq h0 he, (entN [] t).drop (i + 1), ⟨t.kids.nodes + (entN [] t).length + 1, fun fuel hf => ?_⟩, ?_, ?_⟩
  · rw [pCollect_spec (pre := []) (pre' := []) fuel fuel pit _ i h2 ⟨rfl, rfl, rfl⟩ (by omega) (by omega), hdrop]
  · rw [← hdrop]
    exact List.Pairwise.sublist (List.drop_sublist _ _) hasc
  · intro k' v'
    rw [← hdrop, ← mem_entN_nil t h.reach.wf]
    constructor
    · intro hm
      refine ⟨?_, List.mem_of_mem_drop hm⟩
      rw [hdrop] at hm
      rcases List.mem_cons.1 hm with hm | hm
      · cases hm; exact List.le_refl _
      · have := List.Pairwise.sublist (List.drop_sublist i _) hasc
        rw [hdrop] at this
        exact List.le_of_lt (List.rel_of_pairwise_cons this hm)
    · rintro ⟨hle, hm⟩
      obtain ⟨j, hj, hje⟩ := List.getElem_of_mem hm
      rw [List.mem_drop_iff_getElem]
      by_cases hij : i ≤ j
      · exact ⟨j - i, by omega, by simp only [Nat.sub_add_cancel hij, Nat.add_sub_cancel' hij]; exact hje⟩
      · exfalso
        have := (List.pairwise_iff_getElem.1 hasc) j i hj hlt (by omega)
        rw [hje, hge] at this
        exact hle this

/-! ## going back -/

/-- C21 (with C20): `operator--` on the packed form reaches the preceding entry wherever `operator--` of the
source does. -/
theorem C21_dec_follows (cap : Nat) (p : Packed V) (it it' : Iter V) (pit : PIter) (fuel : Nat)
    (hr : Rel cap p it pit) (h : dec fuel it = .ok it') (kv : Key × V) (hd : deref it' = some kv) :
    ∃ pit', pDec cap p.pk fuel pit = .ok pit' ∧ Rel cap p it' pit' ∧ pDeref p.vals pit' = some kv := by
  have hv : ∀ n s, it'.stack = n :: s → n.1.val.isSome := by
    intro n s hs
    unfold deref at hd
    rw [hs] at hd
    cases hk : it'.kind <;> rw [hk] at hd <;> simp at hd
    obtain ⟨x, hx, -⟩ := hd
    rw [hx]; rfl
  obtain ⟨pit', h1, h2⟩ := pDec_spec fuel it it' pit hr h hv
  exact ⟨pit', h1, h2, by rw [h2.deref]; exact hd⟩

/-- C21: `--end()` is the last entry, if there is one and the empty key is not stored. -/
theorem C21_dec_end_partial (cap : Nat) (t : Node V) (p : Packed V) (h : Packs cap t p) (hne : denote t [] = none)
    (hex : ∃ k, denote t k ≠ none) :
    ∃ last, pEnd cap p = .ok last ∧ ∃ b, ∀ fuel ≥ b, ∃ it', pDec cap p.pk fuel last = .ok it' ∧
      ∃ k v, pDeref p.vals it' = some (k, v) ∧ denote t k = some v ∧ ∀ k', denote t k' ≠ none → k' ≤ k := by
  obtain ⟨r, h0, he, hl⟩ := h.enc
  obtain ⟨b, hb⟩ := C20_dec_end_partial t h.reach hne hex
  refine ⟨_, pEnd_eq h0 he, b, fun fuel hf => ?_⟩
  obtain ⟨it', e1, -, k, v, e2, e3⟩ := hb fuel hf
  have hrel : Rel cap p (endIter t []) ⟨[⟨r, r + 2 + 2 * t.kids.length, r + 2 + 2 * t.kids.length⟩], [], nullValue cap, .end_⟩ :=
    ⟨rfl, rfl, _, _, _, _, rfl, rfl, ⟨he, rfl, rfl⟩, trivial, fun hh => by cases hh⟩
  obtain ⟨pit', f1, -, f3⟩ := C21_dec_follows cap p _ _ _ fuel hrel e1 _ e2
  exact ⟨pit', f1, k, v, f3, e3⟩

/-! ## construction from a sorted entry list -/

/-- C21: constructing from entries sorted by key (repeated keys: the last value counts) is the same as
inserting them into a `trie_map` and packing it. Missing for the full property: keys that contain the unit 0
(`C21_entries_zero_fails`). -/
theorem C21_entries_partial (cap : Nat) (l : List (Key × V)) (hs : l.Pairwise fun a b => a.1 ≤ b.1)
    (hz : ∀ e ∈ l, ∀ c ∈ e.1, c ≠ 0) :
    ∃ b, ∀ fuel ≥ b, ofEntries cap fuel l = pack cap (run empty (l.map fun e => .insert e.1 e.2)) := by
  obtain ⟨b, hb⟩ : ∃ b, ∀ e ∈ l, e.1.length < b := by
    clear hs hz
    induction l with
    | nil => exact ⟨0, by simp⟩
    | cons a l ih =>
      obtain ⟨b, hb⟩ := ih
      refine ⟨max b (a.1.length + 1), ?_⟩
      intro e he
      rcases List.mem_cons.1 he with rfl | he
      · omega
      · have := hb e he; omega
  refine ⟨b + 1, fun fuel hf => ?_⟩
  have hsuf : suf 0 l = l := by
    unfold suf
    have : (fun e : Key × V => if 0 ≤ e.1.length then some (e.1.drop 0, e.2) else none) = some := by
      funext e; simp
    rw [this]; simp
  have := traverseRange_spec fuel 0 l (by omega) (by rw [hsuf]; exact hs) hz (fun e he => by have := hb e he; omega)
  unfold ofEntries
  rw [this, hsuf]
  simp only
  congr 1
  unfold insAll run
  rw [List.foldl_map]
  rfl

/-- A map constructed from sorted entries finds, for each key, the last value given for it. -/
theorem C21_entries_find_partial (cap : Nat) (l : List (Key × V)) (hs : l.Pairwise fun a b => a.1 ≤ b.1)
    (hz : ∀ e ∈ l, ∀ c ∈ e.1, c ≠ 0) (hu : ∀ e ∈ l, ∀ c ∈ e.1, c < cap) (p : Packed V) (hroom : p.pk.length ≤ cap)
    (fuel : Nat) (hp : ∀ f ≥ fuel, ofEntries cap f l = .ok p) (k : Key) :
    ∃ it, pFind cap p k = .ok it ∧
      pDeref p.vals it = ((l.reverse.find? fun e => decide (e.1 = k)).map fun e => (k, e.2)) := by
  obtain ⟨b, hb⟩ := C21_entries_partial cap l hs hz
  have hpk : pack cap (run empty (l.map fun e => .insert e.1 e.2)) = .ok p := by
    rw [← hb (max b fuel) (by omega), hp _ (by omega)]
  have hden : ∀ k, denote (run empty (l.map fun e => .insert e.1 e.2)) k = (l.reverse.find? fun e => decide (e.1 = k)).map (·.2) := by
    intro k
    rw [C17_history_insert_clear _ (by simp)]
    unfold specRun
    clear hs hz hu hp hb hpk
    induction l using List.reverseRecOn with
    | nil => rfl
    | append_singleton l a ih =>
      rw [List.map_append, List.foldl_append, List.reverse_append]
      simp only [List.map_cons, List.map_nil, List.foldl_cons, List.foldl_nil, List.reverse_singleton, List.singleton_append,
        List.find?_cons, specStep]
      by_cases hk : a.1 = k
      · simp [hk]
      · have hk' : ¬ k = a.1 := fun h => hk h.symm
        simp only [hk, hk', if_false, decide_false]
        exact ih
  have hP : Packs cap (run empty (l.map fun e => .insert e.1 e.2)) p := by
    refine ⟨⟨_, rfl⟩, .packed hpk, hroom, ?_⟩
    intro k hk
    rw [hden k] at hk
    cases hf : l.reverse.find? fun e => decide (e.1 = k) with
    | none => rw [hf] at hk; simp at hk
    | some e =>
      have h1 := List.find?_some hf
      have h2 := List.mem_of_find?_eq_some hf
      simp only [decide_eq_true_eq] at h1
      rw [← h1]
      exact hu e (by simpa using h2)
  have := C21_find cap _ p hP k
  rw [hden k] at this
  cases hf : l.reverse.find? fun e => decide (e.1 = k) with
  | none =>
    rw [hf] at this
    obtain ⟨it, e1, -, e3⟩ := this.2 rfl
    exact ⟨it, e1, e3⟩
  | some e =>
    rw [hf] at this
    obtain ⟨it, e1, e3⟩ := this.1 e.2 rfl
    exact ⟨it, e1, e3⟩

/-! ## witnesses -/

example : ∃ p, Packs 256 exAll p ∧ p.pk.length = 19 ∧ p.vals = [2, 1, 3, 0] := by
  refine ⟨⟨[13, 0, 0, 255, 2, 100, 2, 1, 2, 98, 4, 2, 0, 3, 4, 97, 6, 98, 2], [2, 1, 3, 0]⟩, ⟨⟨_, rfl⟩, .packed (by decide), by decide, ?_⟩, rfl, rfl⟩
  intro k hk c hc
  have hm := (mem_entN_nil exAll (Reachable.wf ⟨_, rfl⟩) k _).2 (Option.some_get (Option.isSome_iff_ne_none.2 hk)).symm
  generalize (denote exAll k).get (Option.isSome_iff_ne_none.2 hk) = v at hm
  have : entN [] exAll = [([], 0), ([97], 1), ([97, 98, 100], 2), ([98], 3)] := by decide
  rw [this] at hm
  simp only [List.mem_cons, Prod.mk.injEq, List.not_mem_nil, or_false] at hm
  rcases hm with ⟨rfl, -⟩ | ⟨rfl, -⟩ | ⟨rfl, -⟩ | ⟨rfl, -⟩ <;> simp at hc <;> omega

/-- C21 does not hold in full: the entry of the empty key is skipped by the loop from `begin()`. -/
theorem C21_iterate_fails : ∃ (t : Node Nat) (p : Packed Nat), Reachable t ∧ pack 256 t = .ok p ∧ denote t [] = some 0 ∧
    pIterateAll 256 20 p = .ok [([97], 1), ([97, 98, 100], 2), ([98], 3)] :=
  ⟨exAll, ⟨[13, 0, 0, 255, 2, 100, 2, 1, 2, 98, 4, 2, 0, 3, 4, 97, 6, 98, 2], [2, 1, 3, 0]⟩, ⟨_, rfl⟩, by decide, by decide, by rfl⟩

/-- The packed form of 128 one-unit keys with 8-bit cells. -/
def exBig : Packed Nat := match pack 256 (run empty ((List.range 128).map fun i => .insert [i] i)) with
  | .ok p => p
  | _ => ⟨[], []⟩

/-- C21 does not hold when the buffer outgrows the cell type (8-bit cells, 128 one-unit keys): packing reports
no error, `size()` is 128, but the offset of the root is cut off from 257 to 1 and no key is found. -/
theorem C21_truncation_fails : ∃ (t : Node Nat) (it : PIter), Reachable t ∧ pack 256 t = .ok exBig ∧ size t = 128 ∧
    denote t [8] = some 8 ∧ pSize exBig = 128 ∧ pFind 256 exBig [8] = .ok it ∧ pDeref exBig.vals it = none ∧
    pIterateAll 256 200 exBig = .ok [] :=
  ⟨run empty ((List.range 128).map fun i => .insert [i] i), ⟨[⟨1, 3, 3⟩], [], 255, .end_⟩, ⟨_, rfl⟩, by decide +kernel, by decide +kernel,
    by decide +kernel, by decide +kernel, by decide +kernel, by decide +kernel, by decide +kernel⟩

/-- C21 does not hold for entries whose keys contain the unit 0: keys [0], [1]: the unit 0 is taken for "no
range yet", so [0] is merged into the range of [1] and both values end up at the key [1]. -/
theorem C21_entries_zero_fails : ∃ p : Packed Nat, ofEntries 256 5 [([0], 7), ([1], 8)] = .ok p ∧
    pIterateAll 256 20 p = .ok [([1], 8)] ∧ pSize p = 1 :=
  ⟨_, rfl, rfl, rfl⟩

example : ∃ p : Packed Nat, ofEntries 256 5 [([1], 7), ([1, 2], 8), ([1, 3], 9), ([4, 1], 5), ([4, 1], 6)] = .ok p ∧
    pIterateAll 256 20 p = .ok [([1], 7), ([1, 2], 8), ([1, 3], 9), ([4, 1], 6)] := ⟨_, rfl, rfl⟩

example : (pFind 256 ⟨[13, 0, 0, 255, 2, 100, 2, 1, 2, 98, 4, 2, 0, 3, 4, 97, 6, 98, 2], [2, 1, 3, 0]⟩ [97]).bind (fun a =>
    (pFind 256 (⟨[13, 0, 0, 255, 2, 100, 2, 1, 2, 98, 4, 2, 0, 3, 4, 97, 6, 98, 2], [2, 1, 3, 0]⟩ : Packed Nat) [98]).bind fun b =>
      .ok (pIterEq a b, pIterEq a a)) = .ok (false, true) := by decide

/-! ## C58 comparison -/

theorem PAt.raw {cap : Nat} {p : Packed V} {r : Nat} {root : Node V} {pre : Key} {pit : PIter} {i : Nat}
    (h : PAt cap p r root pre pit i) : ∃ e, (entN pre root)[i]? = some e ∧ pDerefRaw p.vals pit = .ok e := by
  obtain ⟨e, h1, h2⟩ := h.lt
  refine ⟨e, h1, ?_⟩
  obtain ⟨it, g1, g2, -⟩ := h
  have hk : pit.kind = .normal := by rw [g2.kind, g1.kind]
  unfold pDeref at h2
  rw [hk] at h2
  unfold pDerefRaw
  cases hv : p.vals[pit.cur]? with
  | none => rw [hv] at h2; cases h2
  | some x => rw [hv] at h2; simp at h2; simp [Outcome.map, h2]

theorem pEqLoop_spec [DecidableEq V] {cap : Nat} {p q : Packed V} {r r' : Nat} {t t' : Node V} {fuel : Nat} {lend : PIter}
    (hl : IsEnd r t [] lend) (hf : t.kids.nodes < fuel) (hf' : t'.kids.nodes < fuel) (m : Nat) (a b : PIter) (i : Nat)
    (ha : PAt cap p r t [] a i) (hb : PAt cap q r' t' [] b i)
    (hlen : (entN [] t).length = (entN [] t').length) (hm : (entN [] t).length < i + m) :
    pEqLoop cap p q fuel m a lend b = .ok (decide ((entN [] t).drop i = (entN [] t').drop i)) := by
  induction m generalizing a b i with
  | zero =>
    obtain ⟨e, h1, -⟩ := ha.lt
    have := (List.getElem?_eq_some_iff.1 h1).1
    omega
  | succ m ih =>
    obtain ⟨e, h1, h2⟩ := ha.raw
    obtain ⟨e', h1', h2'⟩ := hb.raw
    obtain ⟨hlt, hge⟩ := List.getElem?_eq_some_iff.1 h1
    obtain ⟨hlt', hge'⟩ := List.getElem?_eq_some_iff.1 h1'
    have hne : pIterEq a lend = false := by
      obtain ⟨it0, g1, g2, -⟩ := ha
      simp [pIterEq, g2.kind, g1.kind, hl.2.2]
    rw [List.drop_eq_getElem_cons hlt, List.drop_eq_getElem_cons hlt', hge, hge']
    unfold pEqLoop
    rw [hne, h2, h2']
    simp only [Bool.false_eq_true, if_false, obind_ok]
    by_cases he : e = e'
    · subst he
      rw [if_neg (by simp)]
      rcases ha.inc hf with ⟨e1, a', e2, e3⟩ | ⟨a', e1, e2⟩
      · rcases hb.inc hf' with ⟨f1, b', f2, f3⟩ | ⟨b', f1, f2⟩
        · rw [e2, f2, obind_ok, obind_ok]
          cases m with
          | zero => omega
          | succ m =>
            unfold pEqLoop
            rw [show pIterEq a' lend = true by simp [pIterEq, e3.1, e3.2.2, hl.1, hl.2.2]]
            rw [List.drop_eq_nil_of_le (by omega), List.drop_eq_nil_of_le (by omega)]
            simp
        · obtain ⟨x, hx, -⟩ := f2.lt
          have := (List.getElem?_eq_some_iff.1 hx).1
          omega
      · rcases hb.inc hf' with ⟨f1, b', f2, f3⟩ | ⟨b', f1, f2⟩
        · obtain ⟨x, hx, -⟩ := e2.lt
          have := (List.getElem?_eq_some_iff.1 hx).1
          omega
        · rw [e1, f1, obind_ok, obind_ok, ih a' b' (i + 1) e2 f2 (by omega)]
          simp
    · rw [if_pos he]
      simp [he]

/-- C58: two packed maps without the empty key compare equal iff they hold the same entries. Missing for the
full property: maps with the empty key (`C58_eq_fails`, `C58_eq_ub_fails`). -/
theorem C58_eq_partial [DecidableEq V] (cap : Nat) (t t' : Node V) (p p' : Packed V) (h : Packs cap t p) (h' : Packs cap t' p')
    (hne : denote t [] = none) (hne' : denote t' [] = none) :
    ∃ b, (∃ n, ∀ fuel ≥ n, pEq cap fuel p p' = .ok b) ∧ (b = true ↔ ∀ k, denote t k = denote t' k) := by
  obtain ⟨r, h0, he, hl⟩ := h.enc
  obtain ⟨r', h0', he', hl'⟩ := h'.enc
  have hv : t.val = none := by simpa [denote] using hne
  have hv' : t'.val = none := by simpa [denote] using hne'
  have ho : (optEntry [] t.val : List (Key × V)).length = 0 := by rw [hv]; rfl
  have ho' : (optEntry [] t'.val : List (Key × V)).length = 0 := by rw [hv']; rfl
  have hiff : entN [] t = entN [] t' ↔ ∀ k, denote t k = denote t' k := by
    constructor
    · intro heq k
      have : ∀ v, denote t k = some v ↔ denote t' k = some v := by
        intro v
        rw [← mem_entN_nil t h.reach.wf, ← mem_entN_nil t' h'.reach.wf, heq]
      cases hd : denote t k with
      | none =>
        cases hd' : denote t' k with
        | none => rfl
        | some v => rw [← this v, hd] at hd'; cases hd'
      | some v => exact ((this v).1 hd).symm
    · intro hd
      have := (C17_eq t t' h.reach h'.reach).2 hd
      unfold beq at this
      split at this
      · cases this
      · split at this
        · cases this
        · rename_i h1 h2
          have hk := (kids_beq_iff t.kids t'.kids).1 this
          obtain ⟨a, b⟩ := t
          obtain ⟨a', b'⟩ := t'
          simp only at hk hv hv'
          subst hk hv hv'
          rfl
  by_cases hs : p.vals.length = p'.vals.length
  · have hlen : (entN [] t).length = (entN [] t').length := by rw [length_entN, length_entN, ← hl, ← hl', hs]
    refine ⟨decide (entN [] t = entN [] t'), ⟨t.kids.nodes + t'.kids.nodes + (entN [] t).length + 1, fun fuel hf => ?_⟩, by simpa using hiff⟩
    unfold pEq
    rw [if_neg (by simpa using hs), pEnd_eq h0 he]
    rcases pBegin_at h.reach.wf h0 he with ⟨b1, pit, b2, b3⟩ | ⟨b1, pit, b2, b3⟩
    · rcases pBegin_at h'.reach.wf h0' he' with ⟨c1, pit', c2, c3⟩ | ⟨c1, pit', c2, c3⟩
      · rw [b2, c2, obind_ok, obind_ok, obind_ok]
        obtain ⟨f, rfl⟩ : ∃ f, fuel = f + 1 := ⟨fuel - 1, by omega⟩
        unfold pEqLoop
        rw [show pIterEq pit _ = true by simp [pIterEq, b3.1, b3.2.2, b1]]
        simp [entN, hv, hv', b1, c1]
      · exfalso
        obtain ⟨e, g1, -⟩ := c3.lt
        have := (List.getElem?_eq_some_iff.1 g1).1
        have : (entN [] t).length = 0 := by simp [entN, hv, b1, optEntry, entK]
        omega
    · rcases pBegin_at h'.reach.wf h0' he' with ⟨c1, pit', c2, c3⟩ | ⟨c1, pit', c2, c3⟩
      · exfalso
        obtain ⟨e, g1, -⟩ := b3.lt
        have := (List.getElem?_eq_some_iff.1 g1).1
        have : (entN [] t').length = 0 := by simp [entN, hv', c1, optEntry, entK]
        omega
      · rw [b2 fuel (by omega), c2 fuel (by omega), obind_ok, obind_ok, obind_ok]
        rw [ho] at b3
        rw [ho'] at c3
        rw [pEqLoop_spec (r := r) (r' := r') (t := t) (t' := t') ⟨rfl, rfl, rfl⟩ (by omega) (by omega) fuel pit pit' 0 b3 c3 hlen (by omega)]
        simp
  · refine ⟨false, ⟨0, fun fuel _ => ?_⟩, ?_⟩
    · unfold pEq
      rw [if_pos hs]
    · simp only [Bool.false_eq_true, false_iff]
      intro hd
      apply hs
      rw [hl, hl', ← length_entN t [], ← length_entN t' [], hiff.2 hd]

/-- C58 does not hold in full: {"" ↦ 1} == {"" ↦ 2} is true. -/
theorem C58_eq_fails : ∃ (t t' : Node Nat) (p p' : Packed Nat), Reachable t ∧ Reachable t' ∧ pack 256 t = .ok p ∧ pack 256 t' = .ok p' ∧
    pEq 256 20 p p' = .ok true ∧ denote t [] ≠ denote t' [] :=
  ⟨run empty [.insert [] 1], run empty [.insert [] 2], _, _, ⟨_, rfl⟩, ⟨_, rfl⟩, rfl, rfl, rfl, by decide⟩

/-- C58 does not hold in full: {"a" ↦ 1} == {"" ↦ 1} reads a value that does not exist. -/
theorem C58_eq_ub_fails : ∃ (t t' : Node Nat) (p p' : Packed Nat), Reachable t ∧ Reachable t' ∧ pack 256 t = .ok p ∧ pack 256 t' = .ok p' ∧
    ∀ fuel ≥ 20, pEq 256 fuel p p' = .ub :=
  ⟨run empty [.insert [97] 1], run empty [.insert [] 1], _, _, ⟨_, rfl⟩, ⟨_, rfl⟩, rfl, rfl, fun fuel hf => by
    obtain ⟨f, rfl⟩ : ∃ f, fuel = f + 2 := ⟨fuel - 2, by omega⟩
    rfl⟩

end Mdds.Packed
