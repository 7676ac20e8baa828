import Verif.Trie.IterLemmas

/-!
# trie_map: properties C17 - C20

`t` ranges over the tries that some history of `insert` / `erase` / `clear` calls produces from the empty
map.  `denote t` is the finite map stored in `t`.
-/
namespace Mdds.Trie
variable {V : Type}

/-- Tries that a user can build. -/
def Reachable (t : Node V) : Prop := ∃ ops, run empty ops = t

theorem Reachable.wf {t : Node V} (h : Reachable t) : t.kids.WF := by
  obtain ⟨ops, rfl⟩ := h
  exact run_wf ops empty trivial

/-- Condition under which `find` / `erase` treat a key correctly: the key is stored, or no key is stored
that is at least two units shorter and a prefix of it. -/
def Safe (m : Map V) (k : Key) : Prop := m k ≠ none ∨ ∀ q c d r, k = q ++ c :: d :: r → m q = none

/-- Every `erase` of the history is safe at its time. -/
def SafeHist : Map V → List (Op V) → Prop
  | _, [] => True
  | m, o :: os => (match o with | .erase k => Safe m k | _ => True) ∧ SafeHist (specStep m o) os

/-- Example trie: keys "a", "abd". -/
def exAB : Node Nat := run empty [.insert [97] 1, .insert [97, 98, 100] 2]

/-- Example trie: keys "", "a", "abd", "b". -/
def exAll : Node Nat := run empty [.insert [] 0, .insert [97, 98, 100] 2, .insert [98] 3, .insert [97] 1]

/-! ## C17 -/

/-- C17: `insert` stores the value and touches no other key. -/
theorem C17_insert (t : Node V) (h : Reachable t) (k : Key) (v : V) (k' : Key) :
    denote (insert k v t) k' = if k' = k then some v else denote t k' :=
  denote_insert k v t h.wf k'

theorem specStep_erase_found (t m : Node V) (hw : t.kids.WF) (k : Key) (hf : findNode k t = some m) :
    (erase k t).2 = (denote t k).isSome ∧ ∀ k', denote (erase k t).1 k' = if k' = k then none else denote t k' := by
  have hd : denote t k = m.val := by rw [denote_findNode, hf]; rfl
  rw [erase_found k t m hf]
  cases hv : m.val with
  | none =>
    simp only
    refine ⟨by rw [hd, hv]; rfl, ?_⟩
    intro k'
    by_cases hk : k' = k
    · rw [if_pos hk, hk, hd, hv]
    · rw [if_neg hk]
  | some x =>
    exact ⟨by rw [hd, hv]; rfl, (replAt_spec k t m hw hf).2⟩

/-- C18: `erase` of a stored key removes exactly this key and returns true. -/
theorem C18_erase_present (t : Node V) (h : Reachable t) (k : Key) (hk : denote t k ≠ none) :
    (erase k t).2 = true ∧ ∀ k', denote (erase k t).1 k' = if k' = k then none else denote t k' := by
  cases hf : findNode k t with
  | none => rw [denote_findNode, hf] at hk; simp at hk
  | some m =>
    have := specStep_erase_found t m h.wf k hf
    refine ⟨?_, this.2⟩
    rw [this.1]
    cases hh : denote t k with
    | none => exact absurd hh hk
    | some x => rfl

/-- C18, full description of `erase`: a call with a key `k` whose path leaves the trie removes the key two
units above the point where it leaves, if that one is stored. -/
theorem C18_erase_exact (t : Node V) (h : Reachable t) (k : Key) (hk : denote t k = none) :
    (erase k t).2 = false ∧ (∀ k', denote (erase k t).1 k' = denote t k') ∨
    ∃ q c d r, k = q ++ c :: d :: r ∧ denote t q ≠ none ∧ HasPrefix (denote t) (q ++ [c]) ∧
      ¬ HasPrefix (denote t) (q ++ [c, d]) ∧
      (erase k t).2 = true ∧ ∀ k', denote (erase k t).1 k' = if k' = q then none else denote t k' := by
  cases hf : findNode k t with
  | some m =>
    left
    obtain ⟨h1, h2⟩ := specStep_erase_found t m h.wf k hf
    refine ⟨by rw [h1, hk]; rfl, ?_⟩
    intro k'
    rw [h2]
    by_cases hkk : k' = k
    · rw [if_pos hkk, hkk, hk]
    · rw [if_neg hkk]
  | none =>
    rcases erase_missing k t hf with ⟨e1, -⟩ | ⟨q, c, d, r, e1, e2, e3, e4⟩
    · left; rw [e1]; exact ⟨rfl, fun _ => rfl⟩
    · obtain ⟨m, hm⟩ : ∃ m, findNode q t = some m := by
        rw [findNode_append] at e2
        cases hq : findNode q t with
        | none => rw [hq] at e2; simp at e2
        | some m => exact ⟨m, rfl⟩
      obtain ⟨h1, h2⟩ := specStep_erase_found t m h.wf q hm
      rw [e4]
      cases hq : denote t q with
      | none =>
        left
        refine ⟨by rw [h1, hq]; rfl, ?_⟩
        intro k'
        rw [h2]
        by_cases hkk : k' = q
        · rw [if_pos hkk, hkk, hq]
        · rw [if_neg hkk]
      | some x =>
        right
        refine ⟨q, c, d, r, e1, by rw [hq]; simp, ?_, ?_, by rw [h1, hq]; rfl, h2⟩
        · exact (findNode_isSome_iff _ t h.wf (by simp)).1 e2
        · rw [← findNode_isSome_iff _ t h.wf (by simp), e3]; simp

/-- C18 (partial): for a safe key `erase` removes exactly this key and returns whether it was stored. The
full property drops the hypothesis `Safe`; `C18_erase_fails` shows that it does not hold. -/
theorem C18_erase_partial (t : Node V) (h : Reachable t) (k : Key) (hs : Safe (denote t) k) :
    (erase k t).2 = (denote t k).isSome ∧ ∀ k', denote (erase k t).1 k' = if k' = k then none else denote t k' := by
  cases hk : denote t k with
  | some x =>
    have := C18_erase_present t h k (by rw [hk]; simp)
    exact ⟨this.1, this.2⟩
  | none =>
    rcases C18_erase_exact t h k hk with ⟨h1, h2⟩ | ⟨q, c, d, r, e1, e2, -⟩
    · refine ⟨h1, ?_⟩
      intro k'
      rw [h2]
      by_cases hkk : k' = k
      · rw [if_pos hkk, hkk, hk]
      · rw [if_neg hkk]
    · rcases hs with hs | hs
      · exact absurd hk hs
      · exact absurd (hs q c d r e1) e2

/-- C18 does not hold in general: {"a", "abd"}: `erase("abx")` returns true and removes "a". -/
theorem C18_erase_fails : ∃ t : Node Nat, Reachable t ∧ ∃ k, denote t k = none ∧ (erase k t).2 = true ∧
    ∃ k', k' ≠ k ∧ denote t k' = some 1 ∧ denote (erase k t).1 k' = none :=
  ⟨exAB, ⟨_, rfl⟩, [97, 98, 120], by decide, by decide, [97], by decide, by decide, by decide⟩

/-- C18: no dead branches: every node below the root leads to a stored key. `findNode k` is the walk
`root_node().child(k[0]).child(k[1])...`. -/
theorem C18_no_dead_branch (t : Node V) (h : Reachable t) (k : Key) (hk : k ≠ []) (hf : (findNode k t).isSome) :
    HasPrefix (denote t) k :=
  (findNode_isSome_iff k t h.wf hk).1 hf

example : Reachable exAll ∧ denote exAll [97, 98, 100] ≠ none ∧ Safe (denote exAll) [97, 98, 100] ∧
    (findNode [97, 98] exAll).isSome = true ∧ denote exAll [97, 98] = none :=
  ⟨⟨_, rfl⟩, by decide, Or.inl (by decide), by decide, by decide⟩

/-- A safe key that is not stored and that leaves the trie below existing nodes. -/
example : Safe (denote exAB) [97, 120] ∧ denote exAB [97, 120] = none := by
  refine ⟨Or.inr ?_, by decide⟩
  intro q c d r h
  cases q with
  | nil => decide
  | cons a q =>
    have := congrArg List.length h
    simp only [List.cons_append, List.length_cons, List.length_append, List.length_nil] at this
    omega

/-- C17 (partial): after every history in which erase is only called with safe keys, the trie stores the
finite map that the history describes. Missing: unsafe erase calls, see `C18_erase_fails`. -/
theorem C17_history_partial (ops : List (Op V)) (hs : SafeHist (fun _ => none) ops) :
    denote (run empty ops) = specRun ops := by
  have key : ∀ (ops : List (Op V)) (t : Node V) (m : Map V), Reachable t → denote t = m → SafeHist m ops →
      denote (run t ops) = ops.foldl specStep m := by
    intro ops
    induction ops with
    | nil => intro t m _ h _; exact h
    | cons o os ih =>
      intro t m hr hd hs
      have hr' : Reachable (step t o) := by
        obtain ⟨l, rfl⟩ := hr
        exact ⟨l ++ [o], by simp [run, List.foldl_append]⟩
      have hd' : denote (step t o) = specStep m o := by
        funext k'
        cases o with
        | insert k v => subst hd; exact C17_insert t hr k v k'
        | erase k => subst hd; exact (C18_erase_partial t hr k hs.1).2 k'
        | clear => cases k' <;> rfl
      exact ih (step t o) (specStep m o) hr' hd' hs.2
  refine key ops empty _ ⟨[], rfl⟩ ?_ hs
  funext k; cases k <;> rfl

example : SafeHist (fun _ => none) [.insert [97] 1, .insert [97, 98, 100] 2, .erase [97], .erase [97, 120], .clear,
    Op.insert [] 7] := by
  refine ⟨trivial, trivial, Or.inl (by decide), Or.inr ?_, trivial, trivial, trivial⟩
  intro q c d r h
  cases q with
  | nil => decide
  | cons a q =>
    have := congrArg List.length h
    simp only [List.cons_append, List.length_cons, List.length_append, List.length_nil] at this
    omega

/-- C17: histories without erase calls. -/
theorem C17_history_insert_clear (ops : List (Op V)) (hn : ∀ k, Op.erase k ∉ ops) :
    denote (run empty ops) = specRun ops := by
  apply C17_history_partial
  have : ∀ (ops : List (Op V)) (m : Map V), (∀ k, Op.erase k ∉ ops) → SafeHist m ops := by
    intro ops
    induction ops with
    | nil => intro _ _; trivial
    | cons o os ih =>
      intro m hn
      refine ⟨?_, ih _ fun k hk => hn k (by simp [hk])⟩
      cases o with
      | erase k => exact absurd (by simp) (hn k)
      | insert k v => trivial
      | clear => trivial
  exact this ops _ hn

/-- C17: the entries of the map, as a list without repetition of length `size()`. -/
theorem C17_size (t : Node V) (h : Reachable t) :
    ∃ l : List (Key × V), (l.map (·.1)).Nodup ∧ (∀ k v, (k, v) ∈ l ↔ denote t k = some v) ∧ size t = l.length := by
  refine ⟨entries t, ?_, ?_, (length_entN t []).symm⟩
  · unfold List.Nodup
    rw [List.pairwise_map]
    refine (asc_entN [] t h.wf).imp ?_
    intro a b hab he
    rw [he] at hab
    exact List.lt_irrefl _ hab
  · intro k v
    rw [show entries t = entN [] t from rfl, mem_entN t [] h.wf]
    constructor
    · rintro ⟨q, h1, h2⟩
      simp only [List.nil_append] at h1
      rw [h1]; exact h2
    · intro hh; exact ⟨k, rfl, hh⟩

/-- C17: `empty()`. -/
theorem C17_isEmpty (t : Node V) (h : Reachable t) : isEmpty t = true ↔ ∀ k, denote t k = none := by
  unfold isEmpty
  rw [Bool.and_eq_true, isEmpty_iff, Option.isNone_iff_eq_none]
  constructor
  · rintro ⟨h1, h2⟩ k
    cases k with
    | nil => exact h2
    | cons c k => simp [denote, h1, Kids.find?]
  · intro hk
    refine ⟨?_, hk []⟩
    by_contra hne
    obtain ⟨q, hq⟩ := alive_hasPrefix t.val t.kids h.wf (Or.inr hne)
    exact hq (hk _)

/-- C17: `clear()`. -/
theorem C17_clear (t : Node V) : (∀ k, denote (clear t) k = none) ∧ size (clear t) = 0 ∧ isEmpty (clear t) = true :=
  ⟨fun k => by cases k <;> rfl, rfl, rfl⟩

theorem kids_canonical : (a b : Kids V) → a.WF → b.WF →
    (∀ c k, denote ⟨none, a⟩ (c :: k) = denote ⟨none, b⟩ (c :: k)) → a = b
  | .nil, .nil, _, _, _ => rfl
  | .nil, .cons c v k r, _, hb, h => by
    obtain ⟨q, hq⟩ := alive_hasPrefix v k hb.1 hb.2.2.2
    have := h c q
    simp only [denote, Kids.find?, if_true] at this
    exact absurd this.symm hq
  | .cons c v k r, .nil, ha, _, h => by
    obtain ⟨q, hq⟩ := alive_hasPrefix v k ha.1 ha.2.2.2
    have := h c q
    simp only [denote, Kids.find?, if_true] at this
    exact absurd this hq
  | .cons c v k r, .cons c' v' k' r', ha, hb, h => by
    have hcc : c = c' := by
      rcases Nat.lt_trichotomy c c' with hlt | he | hlt
      · exfalso
        obtain ⟨q, hq⟩ := alive_hasPrefix v k ha.1 ha.2.2.2
        have h1 := h c q
        have h2 : (Kids.cons c' v' k' r').find? c = none :=
          Kids.find?_of_allGt (c := c) (ks := .cons c' v' k' r') ⟨hlt, hb.2.2.1.mono (by omega)⟩ c (Nat.le_refl _)
        simp only [denote] at h1
        rw [h2] at h1
        simp only [Kids.find?, if_true] at h1
        exact hq h1
      · exact he
      · exfalso
        obtain ⟨q, hq⟩ := alive_hasPrefix v' k' hb.1 hb.2.2.2
        have h1 := h c' q
        have h2 : (Kids.cons c v k r).find? c' = none :=
          Kids.find?_of_allGt (c := c') (ks := .cons c v k r) ⟨hlt, ha.2.2.1.mono (by omega)⟩ c' (Nat.le_refl _)
        simp only [denote] at h1
        rw [h2] at h1
        simp only [Kids.find?, if_true] at h1
        exact hq h1.symm
    subst hcc
    have hsub : ∀ q, denote ⟨v, k⟩ q = denote ⟨v', k'⟩ q := by
      intro q
      have := h c q
      simpa only [denote, Kids.find?, if_true] using this
    have hv : v = v' := hsub []
    have hk : k = k' := by
      apply kids_canonical k k' ha.1 hb.1
      intro d q
      exact hsub (d :: q)
    have hr : r = r' := by
      apply kids_canonical r r' ha.2.1 hb.2.1
      intro d q
      by_cases hd : d = c
      · subst hd
        simp only [denote]
        rw [Kids.find?_of_allGt ha.2.2.1 d (Nat.le_refl _), Kids.find?_of_allGt hb.2.2.1 d (Nat.le_refl _)]
      · have := h d q
        simp only [denote, Kids.find?, if_neg (Ne.symm hd)] at this
        simpa only [denote] using this
    rw [hv, hk, hr]

theorem kids_beq_iff [DecidableEq V] : (a b : Kids V) → (a.beq b = true ↔ a = b)
  | .nil, .nil => by simp [Kids.beq]
  | .nil, .cons c v k r => by simp [Kids.beq]
  | .cons c v k r, .nil => by simp [Kids.beq]
  | .cons c v k r, .cons c' v' k' r' => by
    rw [show Kids.beq (.cons c v k r) (.cons c' v' k' r') = (if c ≠ c' then false else if v ≠ v' then false else
      if k.length ≠ k'.length then false else k.beq k' && r.beq r') from rfl]
    have i1 := kids_beq_iff k k'
    have i2 := kids_beq_iff r r'
    by_cases h1 : c = c'
    · by_cases h2 : v = v'
      · by_cases h3 : k.length = k'.length
        · simp [h1, h2, h3, i1, i2]
        · have : k ≠ k' := fun h => h3 (by rw [h])
          simp [h1, h2, h3, this]
      · simp [h1, h2]
    · simp [h1]

/-- C17: `operator==` holds exactly when both maps store the same entries. -/
theorem C17_eq [DecidableEq V] (a b : Node V) (ha : Reachable a) (hb : Reachable b) :
    beq a b = true ↔ ∀ k, denote a k = denote b k := by
  have h1 : beq a b = true ↔ a = b := by
    obtain ⟨av, ak⟩ := a
    obtain ⟨bv, bk⟩ := b
    unfold beq
    by_cases h2 : av = bv
    · by_cases h3 : ak.length = bk.length
      · simp [h2, h3, kids_beq_iff]
      · have : ak ≠ bk := fun h => h3 (by rw [h])
        simp [h2, h3, this]
    · simp [h2]
  rw [h1]
  constructor
  · rintro rfl k; rfl
  · intro h
    obtain ⟨av, ak⟩ := a
    obtain ⟨bv, bk⟩ := b
    have hv : av = bv := h []
    have hk : ak = bk := kids_canonical ak bk ha.wf hb.wf fun c k => h (c :: k)
    rw [hv, hk]

/-- Two maps built in different order. -/
example : beq (run empty [.insert [1, 2] 5, .insert [1] 6]) (run empty [.insert [1] 6, .insert [3] 0, .erase [3], .insert [1, 2] 5]) = true ∧
    beq exAll exAB = false := by decide

/-- C17: `find` of a stored key. -/
theorem C17_find_present (t : Node V) (k : Key) (v : V) (hk : denote t k = some v) :
    deref (find t k) = some (k, v) := by
  cases hf : findNode k t with
  | none => rw [denote_findNode, hf] at hk; simp at hk
  | some m =>
    obtain ⟨s', e1, e2, -, -⟩ := findStack_found k t m hf []
    have hm : m.val = some v := by rw [denote_findNode, hf] at hk; exact hk
    unfold find
    rw [e1]
    simp only [hm]
    have : stackKey ((m, 0) :: s') = k := by
      show units s' = k
      rw [e2]; rfl
    simp [deref, hm, this]

/-- C17, full description of `find` for a key that is not stored: end, or the entry two units above the
point where the key leaves the trie. -/
theorem C17_find_exact (t : Node V) (h : Reachable t) (k : Key) (hk : denote t k = none) :
    find t k = endIter t [] ∨
      ∃ q c d r v, k = q ++ c :: d :: r ∧ denote t q = some v ∧ HasPrefix (denote t) (q ++ [c]) ∧
        ¬ HasPrefix (denote t) (q ++ [c, d]) ∧ deref (find t k) = some (q, v) := by
  cases hf : findNode k t with
  | some m =>
    left
    obtain ⟨s', e1, -, -, -⟩ := findStack_found k t m hf []
    have hm : m.val = none := by rw [denote_findNode, hf] at hk; exact hk
    unfold find
    rw [e1]
    simp only [hm]
  | none =>
    rcases findStack_missing k t hf [] with ⟨d, r, e1, e2, e3⟩ | ⟨q, c, d, r, m, ch, i, s', e1, e2, e3, e4, e5, e6⟩
    · left; unfold find; rw [e3]
    · obtain ⟨s'', f1, f2, -, -⟩ := findStack_found q t m e2 []
      rw [e6] at f1
      simp only [List.cons.injEq, true_and] at f1
      subst f1
      unfold find
      rw [e5]
      simp only
      cases hm : m.val with
      | none => left; rfl
      | some v =>
        right
        refine ⟨q, c, d, r, v, e1, by rw [denote_findNode, e2]; exact hm, ?_, ?_, ?_⟩
        · exact (findNode_isSome_iff _ t h.wf (by simp)).1 (by rw [e3]; rfl)
        · rw [← findNode_isSome_iff _ t h.wf (by simp), e4]; simp
        · have : stackKey ((m, i) :: s') = q := by
            show units s' = q
            rw [f2]; rfl
          simp [deref, hm, this]

/-- C17 (partial): `find` of a safe key finds this key if stored, else gives end. -/
theorem C17_find_partial (t : Node V) (h : Reachable t) (k : Key) (hs : Safe (denote t) k) :
    deref (find t k) = (denote t k).map (k, ·) ∧ (denote t k = none → find t k = endIter t []) := by
  cases hk : denote t k with
  | some v => exact ⟨C17_find_present t k v hk, fun h => by cases h⟩
  | none =>
    rcases C17_find_exact t h k hk with h1 | ⟨q, c, d, r, v, e1, e2, -⟩
    · exact ⟨by rw [h1]; rfl, fun _ => h1⟩
    · rcases hs with hs | hs
      · exact absurd hk hs
      · have := hs q c d r e1
        rw [e2] at this
        cases this

/-- C17 does not hold in general: {"a", "abd"}: `find("abx")` gives "a". -/
theorem C17_find_fails : ∃ t : Node Nat, Reachable t ∧ ∃ k, denote t k = none ∧ deref (find t k) = some ([97], 1) :=
  ⟨exAB, ⟨_, rfl⟩, [97, 98, 120], by decide, by decide⟩

/-! ## C19 -/

/-- C19: the loop over `prefix_search(pre)` ends and visits exactly the entries whose key starts with
`pre`, each once, in ascending order. -/
theorem C19_prefix_search (t : Node V) (h : Reachable t) (pre : Key) (hne : pre ≠ [] ∨ ∃ k, denote t k ≠ none) :
    ∃ l : List (Key × V), (∃ b, ∀ fuel ≥ b, iterateSearch fuel t pre = .ok l) ∧
      l.Pairwise (fun a b => a.1 < b.1) ∧ ∀ k v, (k, v) ∈ l ↔ pre <+: k ∧ denote t k = some v := by
  have hmem : ∀ k, denote t k ≠ none → pre <+: k → (findNode pre t).isSome := by
    rintro _ hd ⟨q, rfl⟩
    rw [denote_findNode, findNode_append] at hd
    cases hf : findNode pre t with
    | none => rw [hf] at hd; simp at hd
    | some m => rfl
  cases hf : findNode pre t with
  | none =>
    refine ⟨[], ⟨0, fun fuel _ => ?_⟩, List.Pairwise.nil, ?_⟩
    · simp [iterateSearch, prefixSearch, hf]
    · intro k v
      constructor
      · intro hh; cases hh
      · rintro ⟨h1, h2⟩
        have := hmem k (by rw [h2]; simp) h1
        rw [hf] at this; simp at this
  | some m =>
    have hw := findNode_wf pre t m h.wf hf
    have ha : m.Alive := by
      by_cases hp : pre = []
      · subst hp
        cases hf
        rcases hne with hne | ⟨k, hk⟩
        · exact absurd rfl hne
        · by_contra hc
          simp only [Node.Alive, not_or, ne_eq, not_not] at hc
          apply hk
          cases k with
          | nil => cases hv : t.val with
            | none => exact hv
            | some x => rw [hv] at hc; simp at hc
          | cons c k => simp [denote, hc.2, Kids.find?]
      · exact hw.2 hp
    refine ⟨entN pre m, ⟨m.kids.nodes + (entN pre m).length + 1, ?_⟩, asc_entN pre m hw.1, ?_⟩
    · intro fuel hfuel
      obtain ⟨it, e1, e2⟩ := searchBegin_spec m pre hw.1 ha
      unfold iterateSearch prefixSearch
      rw [hf]
      simp only [Option.map_some]
      rw [e1]
      simp only
      rw [collect_spec fuel fuel it 0 e2 (by omega) (by omega)]
      rfl
    · intro k v
      rw [mem_entN m pre hw.1]
      constructor
      · rintro ⟨q, h1, h2⟩
        refine ⟨⟨q, h1.symm⟩, ?_⟩
        simp only at h1 h2
        rw [h1, denote_findNode, findNode_append, hf]
        rw [denote_findNode] at h2; exact h2
      · rintro ⟨⟨q, h1⟩, h2⟩
        refine ⟨q, h1.symm, ?_⟩
        rw [← h1, denote_findNode, findNode_append, hf] at h2
        rw [denote_findNode]; exact h2

/-- C19 does not hold for the empty prefix on an empty map: `begin()` of the search result reads past the
end of the root's children. -/
theorem C19_prefix_search_empty_fails :
    ∃ t : Node Nat, Reachable t ∧ (∀ k, denote t k = none) ∧ ∀ fuel, iterateSearch fuel t [] = .ub :=
  ⟨empty, ⟨[], rfl⟩, fun k => by cases k <;> rfl, fun _ => rfl⟩

/-- C19: the loop from `begin()` to `end()` visits exactly the entries with a non-empty key, each once, in
ascending order. -/
theorem C19_iterate_nonempty_keys (t : Node V) (h : Reachable t) :
    ∃ l : List (Key × V), (∃ b, ∀ fuel ≥ b, iterateAll fuel t = .ok l) ∧
      l.Pairwise (fun a b => a.1 < b.1) ∧ ∀ k v, (k, v) ∈ l ↔ k ≠ [] ∧ denote t k = some v := by
  have hdrop : (entN [] t).drop (optEntry [] t.val).length = entK [] t.kids := by
    unfold entN; rw [List.drop_left]
  refine ⟨entK [] t.kids, ⟨t.kids.nodes + (entN [] t).length + 1, ?_⟩, asc_entK _ _ h.wf, ?_⟩
  · intro fuel hfuel
    unfold iterateAll
    rcases begin_spec t h.wf with ⟨e1, e2⟩ | ⟨-, it, e1, e2⟩
    · rw [e2]
      simp only
      rw [e1]
      cases fuel with
      | zero => omega
      | succ fuel => unfold collect; rw [iterEq_end]; rfl
    · rw [e1]
      simp only
      rw [collect_spec fuel fuel it _ e2 (by omega) (by omega), hdrop]
  · intro k v
    rw [mem_entK _ _ h.wf]
    constructor
    · rintro ⟨d, q, ch, h1, h2, h3⟩
      simp only [List.nil_append] at h1
      rw [h1]
      exact ⟨by simp, by simp only [denote, h2, h3]⟩
    · rintro ⟨h1, h2⟩
      cases k with
      | nil => exact absurd rfl h1
      | cons d q =>
        simp only [denote] at h2
        cases hf : t.kids.find? d with
        | none => rw [hf] at h2; cases h2
        | some ch => rw [hf] at h2; exact ⟨d, q, ch, rfl, hf, h2⟩

/-- C19 (partial): a map that does not store the empty key is iterated completely. Missing: the empty key,
see `C19_iterate_fails`. -/
theorem C19_iterate_partial (t : Node V) (h : Reachable t) (he : denote t [] = none) :
    ∃ l : List (Key × V), (∃ b, ∀ fuel ≥ b, iterateAll fuel t = .ok l) ∧
      l.Pairwise (fun a b => a.1 < b.1) ∧ ∀ k v, (k, v) ∈ l ↔ denote t k = some v := by
  obtain ⟨l, h1, h2, h3⟩ := C19_iterate_nonempty_keys t h
  refine ⟨l, h1, h2, fun k v => (h3 k v).trans ⟨fun hh => hh.2, fun hh => ⟨?_, hh⟩⟩⟩
  rintro rfl
  rw [he] at hh; cases hh

/-- C19 does not hold when the empty key is stored: `begin()` skips it. -/
theorem C19_iterate_fails : ∃ t : Node Nat, Reachable t ∧ denote t [] = some 0 ∧
    iterateAll 20 t = .ok [([97], 1), ([97, 98, 100], 2), ([98], 3)] :=
  ⟨exAll, ⟨_, rfl⟩, by decide, by rfl⟩

example : iterateSearch 20 exAll [97] = .ok [([97], 1), ([97, 98, 100], 2)] ∧
    iterateSearch 20 exAll [] = .ok [([], 0), ([97], 1), ([97, 98, 100], 2), ([98], 3)] := ⟨rfl, rfl⟩

/-- C19: an iterator from `find` continues the iteration from its key on. -/
theorem C19_find_continues (t : Node V) (h : Reachable t) (k : Key) (v : V) (hk : denote t k = some v) :
    ∃ l : List (Key × V), (∃ b, ∀ fuel ≥ b, collect fuel fuel (find t k) (endIter t []) = .ok l) ∧
      l.Pairwise (fun a b => a.1 < b.1) ∧ ∀ k' v', (k', v') ∈ l ↔ k ≤ k' ∧ denote t k' = some v' := by
  obtain ⟨m, hf, hm⟩ : ∃ m, findNode k t = some m ∧ m.val = some v := by
    cases hf : findNode k t with
    | none => rw [denote_findNode, hf] at hk; simp at hk
    | some m => refine ⟨m, rfl, ?_⟩; rw [denote_findNode, hf] at hk; exact hk
  obtain ⟨s', e1, e2, -, e4⟩ := findStack_found k t m hf []
  have hfind : find t k = ⟨(m, 0) :: s', k, .normal⟩ := by
    unfold find
    rw [e1]
    simp only [hm]
    have : stackKey ((m, 0) :: s') = k := by
      show units s' = k
      rw [e2]; rfl
    rw [this]
  have hat : IterAt t [] (find t k) (beforeBelow s' k).length := by
    rw [hfind]
    exact ⟨rfl, m, s', rfl, by simpa using e4 t [] [] (.base 0), by simp [hm], rfl⟩
  obtain ⟨e, he, hd⟩ := hat.lt
  have hde : e = (k, v) := by
    rw [C17_find_present t k v hk] at hd
    exact (Option.some.inj hd).symm
  subst hde
  obtain ⟨hlt, hge⟩ := List.getElem?_eq_some_iff.1 he
  have hasc : Asc (entN [] t) := asc_entN [] t h.wf
  refine ⟨(entN [] t).drop (beforeBelow s' k).length, ⟨t.kids.nodes + (entN [] t).length + 1, ?_⟩, ?_, ?_⟩
  · intro fuel hfuel
    exact collect_spec fuel fuel _ _ hat (by omega) (by omega)
  · exact List.Pairwise.sublist (List.drop_sublist _ _) hasc
  · intro k' v'
    have hall : (k', v') ∈ entN [] t ↔ denote t k' = some v' := by
      rw [mem_entN t [] h.wf]
      constructor
      · rintro ⟨q, h1, h2⟩; simp only [List.nil_append] at h1; rw [h1]; exact h2
      · intro hh; exact ⟨k', rfl, hh⟩
    rw [← hall]
    constructor
    · intro hmem
      refine ⟨?_, List.mem_of_mem_drop hmem⟩
      rw [List.drop_eq_getElem_cons hlt, hge] at hmem
      rcases List.mem_cons.1 hmem with heq | hmem
      · cases heq; exact List.le_refl _
      · apply List.le_of_lt
        have hp := List.Pairwise.sublist (List.drop_sublist (beforeBelow s' k).length _) hasc
        rw [List.drop_eq_getElem_cons hlt, hge, List.pairwise_cons] at hp
        exact hp.1 _ hmem
    · rintro ⟨hle, hmem⟩
      rw [← List.take_append_drop (beforeBelow s' k).length (entN [] t)] at hmem
      rcases List.mem_append.1 hmem with hmem | hmem
      · exfalso
        have hp := hasc
        unfold Asc at hp
        rw [← List.take_append_drop (beforeBelow s' k).length (entN [] t), List.pairwise_append] at hp
        have := hp.2.2 _ hmem (k, v) (by rw [List.drop_eq_getElem_cons hlt, hge]; simp)
        simp only at this
        exact hle this
      · exact hmem

example : collect 9 9 (find exAll [97, 98, 100]) (endIter exAll []) = .ok [([97, 98, 100], 2), ([98], 3)] := rfl

/-! ## C20 -/

/-- The same position gives equal iterators. -/
theorem iterEq_of_at {root : Node V} {pre : Key} {a b : Iter V} {i : Nat} (ha : IterAt root pre a i) (hb : IterAt root pre b i) :
    iterEq a b = true := by
  obtain ⟨e, h1, h2⟩ := ha.lt
  obtain ⟨e', h3, h4⟩ := hb.lt
  rw [h1] at h3
  cases h3
  have hbuf : ∀ it : Iter V, IterAt root pre it i → deref it = some e → it.buf = e.1 := by
    rintro it ⟨hk, n, st, hs, -, hv, -⟩ hd
    obtain ⟨x, hx⟩ := Option.isSome_iff_exists.1 hv
    unfold deref at hd
    rw [hk, hs] at hd
    simp only [hx, Option.map_some, Option.some.injEq] at hd
    rw [← hd]
  have hA := hbuf a ha h2
  have hB := hbuf b hb h4
  obtain ⟨hka, na, sta, hsa, -⟩ := ha
  obtain ⟨hkb, nb, stb, hsb, -⟩ := hb
  simp [iterEq, hka, hkb, hA, hB, hsa, hsb]

/-- `it` is the iterator at entry number `i` of the map, as `begin()`/`find()` and `++` produce it. -/
abbrev At (t : Node V) (it : Iter V) (i : Nat) : Prop := IterAt t [] it i

/-- C19/C20, comparison: two iterators at entries of the map are equal exactly when they are at the same entry, and none of them
equals the end. -/
theorem C20_iterator_eq (t : Node V) (h : Reachable t) {a b : Iter V} {i j : Nat} (ha : At t a i) (hb : At t b j) :
    (iterEq a b = true ↔ i = j) ∧ iterEq a (endIter t []) = false := by
  refine ⟨⟨fun he => ?_, fun he => iterEq_of_at ha (he ▸ hb)⟩, by simp [iterEq, ha.kind, endIter]⟩
  obtain ⟨e, h1, h2⟩ := ha.lt
  obtain ⟨e', h3, h4⟩ := hb.lt
  have hbuf : ∀ (it : Iter V) (n : Nat) (e : Key × V), At t it n → deref it = some e → it.buf = e.1 := by
    rintro it n e ⟨hk, m, st, hs, -, hv, -⟩ hd
    obtain ⟨x, hx⟩ := Option.isSome_iff_exists.1 hv
    unfold deref at hd
    rw [hk, hs] at hd
    simp only [hx, Option.map_some, Option.some.injEq] at hd
    rw [← hd]
  have hkey : e.1 = e'.1 := by
    rw [← hbuf a i e ha h2, ← hbuf b j e' hb h4]
    simp only [iterEq, ha.kind, hb.kind, reduceCtorEq, decide_true, decide_false, Bool.false_or, Bool.true_and, Bool.and_eq_true,
      decide_eq_true_eq] at he
    exact he.1
  obtain ⟨l1, g1⟩ := List.getElem?_eq_some_iff.1 h1
  obtain ⟨l2, g2⟩ := List.getElem?_eq_some_iff.1 h3
  have hasc := List.pairwise_iff_getElem.1 (asc_entN [] t h.wf)
  rcases Nat.lt_trichotomy i j with hij | hij | hij
  · have := hasc i j l1 l2 hij
    rw [g1, g2, hkey] at this
    exact absurd this (List.lt_irrefl _)
  · exact hij
  · have := hasc j i l2 l1 hij
    rw [g1, g2, hkey] at this
    exact absurd this (List.lt_irrefl _)

theorem at_node (t : Node V) (it : Iter V) (i : Nat) (h : At t it i) (n : Node V × Nat) (st : Stack V) (hs : it.stack = n :: st)
    (hw : t.kids.WF) (hk : n.1.kids ≠ .nil) : ∃ k, deref it = some (it.buf, k) ∧ ∃ c q, denote t (it.buf ++ c :: q) ≠ none := by
  obtain ⟨hkind, m, st', hs', hv, hsome, hl⟩ := h
  rw [hs'] at hs
  cases hs
  obtain ⟨x, hx⟩ := Option.isSome_iff_exists.1 hsome
  refine ⟨x, by simp [deref, hkind, hs', hx], ?_⟩
  cases hm : m.kids with
  | nil => exact absurd hm hk
  | cons c v k r =>
    have hwm := hv.wf hw
    have hne := entK_ne_nil m.kids it.buf hwm hk
    obtain ⟨e, he⟩ := List.exists_mem_of_ne_nil _ hne
    obtain ⟨d, q, hq⟩ := entK_form' _ _ _ he
    refine ⟨d, q, ?_⟩
    have : e ∈ entN [] t := by
      rw [hv.entries]
      refine List.mem_append.2 (Or.inl (List.mem_append.2 (Or.inr ?_)))
      exact List.mem_append.2 (Or.inr he)
    rw [mem_entN t [] hw] at this
    obtain ⟨q', h1, h2⟩ := this
    simp only [List.nil_append] at h1
    rw [← hq, h1, h2]; simp

/-- C20 (partial): going back from an entry that is not the first one gives the preceding entry (an equal
iterator), provided no longer key starts with the current key, or the preceding key is a non-empty prefix
of the current one, or both keys begin with different units. The full property has no such condition;
`C20_dec_fails` and `C20_dec_ub_fails` show that it does not hold. -/
theorem C20_dec_partial (t : Node V) (h : Reachable t) (it prev : Iter V) (i : Nat) (hp : At t prev i) (hi : At t it (i + 1))
    (k k' : Key) (v v' : V) (hd : deref it = some (k, v)) (hd' : deref prev = some (k', v'))
    (hcond : (∀ c q, denote t (k ++ c :: q) = none) ∨ (k' ≠ [] ∧ k' <+: k) ∨ (k' ≠ [] ∧ k'.head? ≠ k.head?)) :
    ∃ b, ∀ fuel ≥ b, ∃ it', dec fuel it = .ok it' ∧ iterEq it' prev = true ∧ deref it' = some (k', v') := by
  refine ⟨t.kids.nodes + 1, fun fuel hf => ?_⟩
  have key : ∃ it', dec fuel it = .ok it' ∧ IterAt t [] it' i := by
    obtain ⟨e, he, hde⟩ := hp.lt
    rw [hd'] at hde
    cases hde
    have hbuf : it.buf = k := by
      obtain ⟨hk, n, st, hs, -, hv, -⟩ := hi
      obtain ⟨x, hx⟩ := Option.isSome_iff_exists.1 hv
      unfold deref at hd
      rw [hk, hs] at hd
      simp only [hx, Option.map_some, Option.some.injEq, Prod.mk.injEq] at hd
      exact hd.1
    by_cases hleaf : ∀ n st, it.stack = n :: st → n.1.kids = .nil
    · exact hi.dec_leaf h.wf (by omega) hleaf
    · simp only [not_forall] at hleaf
      obtain ⟨n, st, hs, hn⟩ := hleaf
      refine hi.dec_inner h.wf (by omega) _ he ?_ ?_
      · intro n' st' hs'
        rw [hs] at hs'
        cases hs'
        exact hn
      · rw [hbuf]
        rcases hcond with hc | hc | hc
        · exfalso
          obtain ⟨x, -, c, q, hne⟩ := at_node t it _ hi n st hs h.wf hn
          rw [hbuf] at hne
          exact hne (hc c q)
        · exact Or.inl hc
        · exact Or.inr ⟨hc.2, hc.1⟩
  obtain ⟨it', e1, e2⟩ := key
  obtain ⟨e, he, hde⟩ := hp.lt
  obtain ⟨e', he', hde'⟩ := e2.lt
  rw [he] at he'
  cases he'
  rw [hd'] at hde
  cases hde
  exact ⟨it', e1, iterEq_of_at e2 hp, hde'⟩

/-- C20: `--` undoes `++` at every position of a map where no key is a prefix of another one. -/
theorem C20_dec_inc_prefix_free (t : Node V) (h : Reachable t)
    (hfree : ∀ k c q, denote t k ≠ none → denote t (k ++ c :: q) = none)
    (it : Iter V) (i : Nat) (hi : At t it i) (hl : i + 1 < size t) :
    ∃ b, ∀ fuel ≥ b, ∃ nx it', inc fuel it = .ok nx ∧ dec fuel nx = .ok it' ∧ iterEq it' it = true := by
  refine ⟨t.kids.nodes + 1, fun fuel hf => ?_⟩
  rcases IterAt.inc (root := t) (pre := []) (fuel := fuel) hi (by omega) with ⟨e1, -⟩ | ⟨nx, e1, e2⟩
  · rw [length_entN] at e1; omega
  · have hleaf : ∀ n st, nx.stack = n :: st → n.1.kids = .nil := by
      intro n st hs
      by_contra hn
      obtain ⟨x, hd, c, q, hne⟩ := at_node t nx _ e2 n st hs h.wf hn
      obtain ⟨e, he, hde⟩ := e2.lt
      rw [hd] at hde
      cases hde
      have : (nx.buf, x) ∈ entN [] t := List.mem_of_getElem? he
      rw [mem_entN t [] h.wf] at this
      obtain ⟨q', h1, h2⟩ := this
      simp only [List.nil_append] at h1 h2
      exact hne (hfree nx.buf c q (by rw [h1, h2]; simp))
    obtain ⟨it', e3, e4⟩ := e2.dec_leaf (fuel := fuel) h.wf (by omega) hleaf
    exact ⟨nx, it', e1, e3, iterEq_of_at e4 hi⟩

/-- C20: `--end()` is the last entry if the empty key is not stored. -/
theorem C20_dec_end_partial (t : Node V) (h : Reachable t) (he : denote t [] = none) (hne : ∃ k, denote t k ≠ none) :
    ∃ b, ∀ fuel ≥ b, ∃ it', dec fuel (endIter t []) = .ok it' ∧ At t it' (size t - 1) ∧
      ∃ k v, deref it' = some (k, v) ∧ denote t k = some v ∧ ∀ k', denote t k' ≠ none → k' ≤ k := by
  refine ⟨t.kids.nodes + 1, fun fuel hf => ?_⟩
  have hk : t.kids ≠ .nil := by
    obtain ⟨k, hk⟩ := hne
    intro hn
    cases k with
    | nil => exact hk he
    | cons c k => simp [denote, hn, Kids.find?] at hk
  obtain ⟨it', e1, e2⟩ := dec_end t [] fuel h.wf (by omega) he hk
  obtain ⟨⟨k, v⟩, h1, h2⟩ := e2.lt
  rw [length_entN] at e2
  refine ⟨it', e1, e2, k, v, h2, ?_, ?_⟩
  · have := List.mem_of_getElem? h1
    rw [mem_entN t [] h.wf] at this
    obtain ⟨q, h3, h4⟩ := this
    simp only [List.nil_append] at h3 h4
    rw [h3, h4]
  · intro k' hk'
    cases hh : denote t k' with
    | none => exact absurd hh hk'
    | some v' =>
      have hm : (k', v') ∈ entN [] t := by rw [mem_entN t [] h.wf]; exact ⟨k', rfl, hh⟩
      obtain ⟨j, hj, hg⟩ := List.mem_iff_getElem.1 hm
      obtain ⟨hlt, hge⟩ := List.getElem?_eq_some_iff.1 h1
      rcases Nat.lt_or_ge j ((entN [] t).length - 1) with hj' | hj'
      · apply List.le_of_lt
        have := (List.pairwise_iff_getElem.1 (asc_entN [] t h.wf)) j _ hj hlt hj'
        rw [hg, hge] at this
        exact this
      · have : j = (entN [] t).length - 1 := by omega
        subst this
        rw [hg] at hge
        cases hge
        exact List.le_refl _

/-- C20 does not hold in general: keys "r", "ra", "rb", "rbc": going back from "rb" gives "r" instead
of "ra". -/
theorem C20_dec_fails : ∃ t : Node Nat, Reachable t ∧
    ∃ prev it it' : Iter Nat, find t [114, 97] = prev ∧ inc 20 prev = .ok it ∧ deref it = some ([114, 98], 3) ∧
      dec 20 it = .ok it' ∧ deref prev = some ([114, 97], 2) ∧ deref it' = some ([114], 1) :=
  ⟨run empty [.insert [114] 1, .insert [114, 97] 2, .insert [114, 98] 3, .insert [114, 98, 99] 4], ⟨_, rfl⟩,
    _, _, _, rfl, rfl, rfl, rfl, rfl, rfl⟩

/-- C20 does not hold in general: keys "ra", "rb", "rbc": going back from "rb" is undefined. -/
theorem C20_dec_ub_fails : ∃ t : Node Nat, Reachable t ∧
    ∃ prev it : Iter Nat, find t [114, 97] = prev ∧ inc 20 prev = .ok it ∧ deref prev = some ([114, 97], 2) ∧
      deref it = some ([114, 98], 3) ∧ ∀ fuel ≥ 20, dec fuel it = .ub :=
  ⟨run empty [.insert [114, 97] 2, .insert [114, 98] 3, .insert [114, 98, 99] 4], ⟨_, rfl⟩,
    _, _, rfl, rfl, rfl, rfl, fun fuel hf => by
      obtain ⟨f, rfl⟩ : ∃ f, fuel = f + 1 := ⟨fuel - 1, by omega⟩
      rfl⟩

/-- C20 does not hold when the empty key is stored: `--end()` is the entry of the empty key. -/
theorem C20_dec_end_fails : ∃ t : Node Nat, Reachable t ∧
    ∃ it, dec 20 (endIter t []) = .ok it ∧ deref it = some ([], 0) ∧ denote t [98] = some 3 :=
  ⟨exAll, ⟨_, rfl⟩, _, rfl, rfl, rfl⟩

/-- A map whose keys are no prefixes of each other: the hypotheses of C20 hold at a proper position. -/
example : ∃ it, begin_ (run empty [.insert [1, 2] 5, .insert [1, 3] 6, .insert [4] 7]) = .ok it ∧
    At (run empty [.insert [1, 2] 5, .insert [1, 3] 6, .insert [4] 7]) it 0 := by
  rcases begin_spec (run empty [.insert [1, 2] 5, .insert [1, 3] 6, .insert [4] 7]) (run_wf _ _ trivial) with ⟨h, -⟩ | ⟨-, it, h1, h2⟩
  · exact absurd h (by decide)
  · exact ⟨it, h1, h2⟩

example : (dec 20 (endIter exAB [])).map deref = .ok (some ([97, 98, 100], 2)) := rfl

end Mdds.Trie
