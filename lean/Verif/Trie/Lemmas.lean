import Verif.Trie.Spec
import Mathlib.Data.List.Basic

namespace Mdds.Trie
variable {V : Type}

/-! ### children -/

/-- All key units exceed `c`. -/
def Kids.AllGt (c : Nat) : Kids V → Prop
  | .nil => True
  | .cons d _ _ r => c < d ∧ r.AllGt c

/-- Children sorted by unit, and no dead ends, on all levels. -/
def Kids.WF : Kids V → Prop
  | .nil => True
  | .cons c v k r => k.WF ∧ r.WF ∧ r.AllGt c ∧ (v.isSome ∨ k ≠ .nil)

/-- Not a dead end. -/
def Node.Alive (n : Node V) : Prop := n.val.isSome ∨ n.kids ≠ .nil

theorem Kids.AllGt.mono {c d : Nat} (h : d ≤ c) : {ks : Kids V} → ks.AllGt c → ks.AllGt d
  | .nil, _ => trivial
  | .cons _ _ _ _, hk => ⟨Nat.lt_of_le_of_lt h hk.1, Kids.AllGt.mono h hk.2⟩

theorem Kids.find?_of_allGt {c : Nat} : {ks : Kids V} → ks.AllGt c → ∀ d ≤ c, ks.find? d = none
  | .nil, _, _, _ => rfl
  | .cons e v k r, h, d, hd => by
    unfold Kids.find?
    have h1 := h.1
    rw [if_neg (by omega)]
    exact Kids.find?_of_allGt h.2 d hd

theorem Kids.find?_wf {c : Nat} {n : Node V} : {ks : Kids V} → ks.WF → ks.find? c = some n → n.kids.WF ∧ n.Alive
  | .nil, _, h => by simp [Kids.find?] at h
  | .cons d v k r, hw, h => by
    unfold Kids.find? at h
    split at h
    · cases h; exact ⟨hw.1, hw.2.2.2⟩
    · exact Kids.find?_wf hw.2.1 h

theorem Kids.get?_wf {c : Nat} {n : Node V} : {ks : Kids V} → {i : Nat} → ks.WF → ks.get? i = some (c, n) →
    n.kids.WF ∧ n.Alive
  | .nil, _, _, h => by simp [Kids.get?] at h
  | .cons d v k r, 0, hw, h => by
    simp only [Kids.get?, Option.some.injEq, Prod.mk.injEq] at h
    obtain ⟨-, rfl⟩ := h
    exact ⟨hw.1, hw.2.2.2⟩
  | .cons d v k r, i + 1, hw, h => Kids.get?_wf (i := i) hw.2.1 (by simpa [Kids.get?] using h)

theorem Kids.get?_lt {x : Nat × Node V} : {ks : Kids V} → {i : Nat} → ks.get? i = some x → i < ks.length
  | .nil, _, h => by simp [Kids.get?] at h
  | .cons d v k r, 0, _ => by simp [Kids.length]
  | .cons d v k r, i + 1, h => by
    have := Kids.get?_lt (ks := r) (i := i) (by simpa [Kids.get?] using h)
    simp [Kids.length]; omega

theorem Kids.get?_none : {ks : Kids V} → {i : Nat} → ks.get? i = none → ks.length ≤ i
  | .nil, _, _ => by simp [Kids.length]
  | .cons d v k r, 0, h => by simp [Kids.get?] at h
  | .cons d v k r, i + 1, h => by
    have := Kids.get?_none (ks := r) (i := i) (by simpa [Kids.get?] using h)
    simp [Kids.length]; omega

theorem Kids.get?_some_of_lt : {ks : Kids V} → {i : Nat} → i < ks.length → ∃ x, ks.get? i = some x
  | .nil, _, h => by simp [Kids.length] at h
  | .cons d v k r, 0, _ => ⟨_, rfl⟩
  | .cons d v k r, i + 1, h => by
    simp only [Kids.length] at h
    exact Kids.get?_some_of_lt (ks := r) (i := i) (by omega)

theorem Kids.allGt_get {c : Nat} {x : Nat × Node V} : {ks : Kids V} → {i : Nat} → ks.AllGt c → ks.get? i = some x →
    c < x.1
  | .nil, _, _, h => by simp [Kids.get?] at h
  | .cons d v k r, 0, hg, h => by
    simp only [Kids.get?, Option.some.injEq] at h
    subst h; exact hg.1
  | .cons d v k r, i + 1, hg, h => Kids.allGt_get (ks := r) (i := i) hg.2 (by simpa [Kids.get?] using h)

/-- Lookup by unit and by index agree. -/
theorem Kids.idxOf?_spec {c : Nat} : (ks : Kids V) →
    (ks.idxOf? c = none ∧ ks.find? c = none) ∨
      ∃ i n, ks.idxOf? c = some i ∧ ks.get? i = some (c, n) ∧ ks.find? c = some n
  | .nil => Or.inl ⟨rfl, rfl⟩
  | .cons d v k r => by
    unfold Kids.idxOf? Kids.find?
    by_cases h : d = c
    · subst h; right; exact ⟨0, ⟨v, k⟩, by simp, by simp [Kids.get?], by simp⟩
    · rw [if_neg h, if_neg h]
      rcases Kids.idxOf?_spec (c := c) r with ⟨h1, h2⟩ | ⟨i, n, h1, h2, h3⟩
      · left; simp [h1, h2]
      · right; exact ⟨i + 1, n, by simp [h1], by simpa [Kids.get?] using h2, h3⟩

theorem Kids.find?_of_get {c : Nat} {n : Node V} : {ks : Kids V} → {i : Nat} → ks.WF → ks.get? i = some (c, n) →
    ks.find? c = some n
  | .nil, _, _, h => by simp [Kids.get?] at h
  | .cons d v k r, 0, hw, h => by
    simp only [Kids.get?, Option.some.injEq, Prod.mk.injEq] at h
    obtain ⟨rfl, rfl⟩ := h
    simp [Kids.find?]
  | .cons d v k r, i + 1, hw, h => by
    simp only [Kids.get?] at h
    have := Kids.allGt_get hw.2.2.1 h
    simp only at this
    unfold Kids.find?
    rw [if_neg (by omega)]
    exact Kids.find?_of_get hw.2.1 h

/-! ### insertion -/

theorem Kids.find?_upd (c : Nat) (f : Node V → Node V) : (ks : Kids V) → ks.WF → ∀ d,
    (ks.upd c f).find? d = if d = c then some (f ((ks.find? c).getD ⟨none, .nil⟩)) else ks.find? d
  | .nil, _, d => by
    by_cases h : d = c
    · subst h; simp [Kids.upd, Kids.find?]
    · simp only [Kids.upd, Kids.find?, if_neg h]; rw [if_neg (Ne.symm h)]
  | .cons e v k r, hw, d => by
    unfold Kids.upd
    by_cases h1 : e < c
    · rw [if_pos h1]
      unfold Kids.find?
      rw [Kids.find?_upd c f r hw.2.1 d, if_neg (show ¬ e = c by omega)]
      by_cases h2 : e = d
      · subst h2; rw [if_pos rfl, if_neg (by omega), if_pos rfl]
      · rw [if_neg h2, if_neg h2]
    · rw [if_neg h1]
      by_cases h2 : c < e
      · rw [if_pos h2]
        have hg : (Kids.cons e v k r).AllGt c := ⟨h2, hw.2.2.1.mono (by omega)⟩
        have hn : (Kids.cons e v k r).find? c = none := Kids.find?_of_allGt hg c (Nat.le_refl _)
        rw [hn]
        simp only [Option.getD_none]
        conv_lhs => unfold Kids.find?
        by_cases h3 : d = c
        · subst h3; simp
        · rw [if_neg (Ne.symm h3), if_neg h3]
      · have : e = c := by omega
        subst this
        rw [if_neg h2]
        by_cases h3 : d = e
        · subst h3; simp [Kids.find?]
        · rw [if_neg h3]
          simp [Kids.find?, Ne.symm h3]

theorem Kids.allGt_upd {b c : Nat} (hbc : b < c) (f : Node V → Node V) : (ks : Kids V) → ks.AllGt b →
    (ks.upd c f).AllGt b
  | .nil, _ => ⟨hbc, trivial⟩
  | .cons e v k r, h => by
    unfold Kids.upd
    split
    · exact ⟨h.1, Kids.allGt_upd hbc f r h.2⟩
    · split
      · exact ⟨hbc, h⟩
      · exact h

theorem Kids.wf_upd (c : Nat) (f : Node V → Node V)
    (hf : ∀ n : Node V, n.kids.WF → (f n).kids.WF ∧ (f n).Alive) : (ks : Kids V) → ks.WF → (ks.upd c f).WF
  | .nil, _ => by
    have := hf ⟨none, .nil⟩ trivial
    exact ⟨this.1, trivial, trivial, this.2⟩
  | .cons e v k r, hw => by
    unfold Kids.upd
    by_cases h1 : e < c
    · rw [if_pos h1]
      exact ⟨hw.1, Kids.wf_upd c f hf r hw.2.1, Kids.allGt_upd h1 f r hw.2.2.1, hw.2.2.2⟩
    · rw [if_neg h1]
      by_cases h2 : c < e
      · rw [if_pos h2]
        have := hf ⟨none, .nil⟩ trivial
        exact ⟨this.1, hw, ⟨h2, hw.2.2.1.mono (by omega)⟩, this.2⟩
      · rw [if_neg h2]
        have := hf ⟨v, k⟩ hw.1
        exact ⟨this.1, hw.2.1, hw.2.2.1, this.2⟩

theorem upd_ne_nil (c : Nat) (f : Node V → Node V) (ks : Kids V) : ks.upd c f ≠ .nil := by
  cases ks with
  | nil => simp [Kids.upd]
  | cons e v k r => unfold Kids.upd; split <;> [skip; split] <;> simp

theorem insert_wf (k : Key) (v : V) (n : Node V) (h : n.kids.WF) :
    (insert k v n).kids.WF ∧ (insert k v n).Alive := by
  induction k generalizing n with
  | nil => exact ⟨h, Or.inl rfl⟩
  | cons c k ih =>
    exact ⟨Kids.wf_upd c _ (fun m hm => ih m hm) n.kids h, Or.inr (upd_ne_nil _ _ _)⟩

theorem denote_nil_kids (v : Option V) (c : Nat) (k : Key) : denote ⟨v, .nil⟩ (c :: k) = none := rfl

theorem denote_insert (k : Key) (v : V) (n : Node V) (h : n.kids.WF) (k' : Key) :
    denote (insert k v n) k' = if k' = k then some v else denote n k' := by
  induction k generalizing n k' with
  | nil =>
    cases k' with
    | nil => simp [insert, denote]
    | cons c k' => simp [insert, denote]
  | cons c k ih =>
    cases k' with
    | nil => simp [insert, denote]
    | cons d k' =>
      simp only [insert, denote]
      rw [Kids.find?_upd c _ n.kids h d]
      by_cases hd : d = c
      · subst hd
        rw [if_pos rfl]
        simp only
        have hwf : ((n.kids.find? d).getD ⟨none, .nil⟩).kids.WF := by
          cases hf : n.kids.find? d with
          | none => trivial
          | some m => exact (Kids.find?_wf h hf).1
        rw [ih _ hwf k']
        by_cases hk : k' = k
        · simp [hk]
        · rw [if_neg hk, if_neg (by simp [hk])]
          cases hf : n.kids.find? d with
          | none =>
            cases k' with
            | nil => rfl
            | cons e k' => rfl
          | some m => rfl
      · rw [if_neg hd, if_neg (by simp [hd])]

/-! ### nodes on a path -/

theorem denote_findNode (k : Key) (n : Node V) : denote n k = (findNode k n).bind (·.val) := by
  induction k generalizing n with
  | nil => rfl
  | cons c k ih =>
    unfold denote findNode
    cases n.kids.find? c with
    | none => rfl
    | some m => exact ih m

theorem findNode_append (k r : Key) (n : Node V) : findNode (k ++ r) n = (findNode k n).bind (findNode r) := by
  induction k generalizing n with
  | nil => rfl
  | cons c k ih =>
    rw [List.cons_append]
    unfold findNode
    cases n.kids.find? c with
    | none => rfl
    | some m => exact ih m

theorem findNode_wf (k : Key) (n m : Node V) (h : n.kids.WF) (hf : findNode k n = some m) :
    m.kids.WF ∧ (k ≠ [] → m.Alive) := by
  induction k generalizing n with
  | nil => cases hf; exact ⟨h, fun hk => absurd rfl hk⟩
  | cons c k ih =>
    unfold findNode at hf
    cases hc : n.kids.find? c with
    | none => rw [hc] at hf; cases hf
    | some ch =>
      rw [hc] at hf
      have hw := Kids.find?_wf h hc
      have := ih ch hw.1 hf
      refine ⟨this.1, fun _ => ?_⟩
      cases k with
      | nil => cases hf; exact hw.2
      | cons d k => exact this.2 (by simp)

/-- A node that is not a dead end has a key at or below it. -/
theorem alive_hasPrefix : (v : Option V) → (k : Kids V) → k.WF → (v.isSome ∨ k ≠ .nil) →
    HasPrefix (denote ⟨v, k⟩) []
  | some x, k, _, _ => ⟨[], by simp [denote]⟩
  | none, .nil, _, h => by simp at h
  | none, .cons c v k r, hw, _ => by
    obtain ⟨q, hq⟩ := alive_hasPrefix v k hw.1 hw.2.2.2
    refine ⟨c :: q, ?_⟩
    simpa [denote, Kids.find?] using hq

theorem findNode_isSome_iff (k : Key) (n : Node V) (h : n.kids.WF) (hk : k ≠ []) :
    (findNode k n).isSome ↔ HasPrefix (denote n) k := by
  constructor
  · intro hs
    obtain ⟨m, hm⟩ := Option.isSome_iff_exists.1 hs
    have hw := findNode_wf k n m h hm
    obtain ⟨q, hq⟩ := alive_hasPrefix m.val m.kids hw.1 (hw.2 hk)
    refine ⟨q, ?_⟩
    rw [denote_findNode, findNode_append, hm]
    rw [denote_findNode] at hq
    exact hq
  · rintro ⟨q, hq⟩
    rw [denote_findNode, findNode_append] at hq
    cases hf : findNode k n with
    | none => rw [hf] at hq; simp at hq
    | some m => rfl

/-! ### the search stack -/

/-- Subtree after changing the node at `k` to `m'` and pruning empty nodes on the way up. -/
def replAt : Key → Node V → Node V → Node V
  | [], _, m' => m'
  | c :: k, n, m' => match n.kids.idxOf? c with
    | none => n
    | some i => match n.kids.get? i with
      | none => n
      | some ch =>
        let ch' := replAt k ch.2 m'
        if ch'.val.isNone ∧ ch'.kids.isEmpty then ⟨n.val, n.kids.eraseIdx i⟩
        else ⟨n.val, n.kids.setIdx i ch'⟩

/-- Stack that belongs to a path from `root`; `pre` is the key of the root. -/
inductive Valid (root : Node V) (pre : Key) : Stack V → Key → Prop
  | base (i : Nat) : Valid root pre [(root, i)] pre
  | push {p : Node V} {i : Nat} {st : Stack V} {buf : Key} {c : Nat} {n : Node V} (j : Nat)
      (h : Valid root pre ((p, i) :: st) buf) (hg : p.kids.get? i = some (c, n)) :
      Valid root pre ((n, j) :: (p, i) :: st) (buf ++ [c])

theorem Valid.repos {root : Node V} {pre : Key} {n : Node V} {j : Nat} {st : Stack V} {buf : Key}
    (h : Valid root pre ((n, j) :: st) buf) (j' : Nat) : Valid root pre ((n, j') :: st) buf := by
  cases h with
  | base => exact .base j'
  | push _ h hg => exact .push j' h hg

/-- Key units of a stack, bottom first. -/
def units (st : Stack V) : Key := st.reverse.filterMap fun s => (s.1.kids.get? s.2).map (·.1)

theorem units_cons (x : Node V × Nat) (st : Stack V) :
    units (x :: st) = units st ++ ((x.1.kids.get? x.2).map (·.1)).toList := by
  unfold units
  rw [List.reverse_cons, List.filterMap_append]
  congr 1

theorem findStack_found (k : Key) (n m : Node V) (hf : findNode k n = some m) (st : Stack V) :
    ∃ s', findStack k n st = (m, 0) :: s' ∧ units s' = units st ++ k ∧
      (∀ m', pruneUp m' s' = pruneUp (replAt k n m') st) ∧
      (∀ root pre buf, Valid root pre ((n, 0) :: st) buf → Valid root pre ((m, 0) :: s') (buf ++ k)) := by
  induction k generalizing n st with
  | nil =>
    cases hf
    refine ⟨st, rfl, by simp, fun _ => rfl, ?_⟩
    intro root pre buf h; simpa using h
  | cons c k ih =>
    unfold findNode at hf
    rcases Kids.idxOf?_spec (c := c) n.kids with ⟨h1, h2⟩ | ⟨i, ch, h1, h2, h3⟩
    · rw [h2] at hf; cases hf
    · rw [h3] at hf
      obtain ⟨s', e1, e2, e3, e4⟩ := ih ch hf ((n, i) :: st)
      unfold findStack
      simp only [h1, h2]
      refine ⟨s', e1, ?_, ?_, ?_⟩
      · rw [e2, units_cons]; simp [h2]
      · intro m'
        rw [e3]
        conv_rhs => unfold replAt
        simp only [h1, h2]
        conv_lhs => unfold pruneUp
        by_cases hd : (replAt k ch m').val.isNone = true ∧ (replAt k ch m').kids.isEmpty = true
        · rw [if_pos hd, if_pos hd]
        · rw [if_neg hd, if_neg hd]
      · intro root pre buf hv
        have := e4 root pre (buf ++ [c]) (.push 0 (hv.repos i) h2)
        simpa using this

/-- When the key's path ends early, the stack stops one node above the last existing one. -/
theorem findStack_missing (k : Key) (n : Node V) (hf : findNode k n = none) (st : Stack V) :
    (∃ d r, k = d :: r ∧ n.kids.find? d = none ∧ findStack k n st = st) ∨
      ∃ q c d r m ch i s', k = q ++ c :: d :: r ∧ findNode q n = some m ∧ findNode (q ++ [c]) n = some ch ∧
        findNode (q ++ [c, d]) n = none ∧ findStack k n st = (m, i) :: s' ∧ findStack q n st = (m, 0) :: s' := by
  induction k generalizing n st with
  | nil => cases hf
  | cons c k ih =>
    rcases Kids.idxOf?_spec (c := c) n.kids with ⟨h1, h2⟩ | ⟨i, ch, h1, h2, h3⟩
    · left; exact ⟨c, k, rfl, h2, by unfold findStack; simp only [h1]⟩
    · right
      have hf' : findNode k ch = none := by unfold findNode at hf; rw [h3] at hf; exact hf
      have hfs : findStack (c :: k) n st = findStack k ch ((n, i) :: st) := by
        conv_lhs => unfold findStack
        simp only [h1, h2]
      have hfn : ∀ x, findNode (c :: x) n = findNode x ch := by
        intro x; conv_lhs => unfold findNode
        rw [h3]
      rcases ih ch hf' ((n, i) :: st) with ⟨d, r, e1, e2, e3⟩ | ⟨q, c', d, r, m, ch', i', s', e1, e2, e3, e4, e5, e6⟩
      · refine ⟨[], c, d, r, n, ch, i, st, by rw [e1]; rfl, rfl, ?_, ?_, by rw [hfs, e3], rfl⟩
        · simp only [List.nil_append]; rw [hfn]; rfl
        · simp only [List.nil_append]; rw [hfn]; unfold findNode; rw [e2]
      · refine ⟨c :: q, c', d, r, m, ch', i', s', by rw [e1]; rfl, by rw [hfn, e2], ?_, ?_, by rw [hfs, e5], ?_⟩
        · rw [List.cons_append, hfn, e3]
        · rw [List.cons_append, hfn, e4]
        · conv_lhs => unfold findStack
          simp only [h1, h2]; exact e6

/-! ### erase -/

theorem Kids.setIdx_length : (ks : Kids V) → (i : Nat) → (n : Node V) → (ks.setIdx i n).length = ks.length
  | .nil, _, _ => rfl
  | .cons _ _ _ _, 0, _ => rfl
  | .cons c v k r, i + 1, n => by simp [Kids.setIdx, Kids.length, Kids.setIdx_length r i n]

theorem Kids.allGt_setIdx {b : Nat} : (ks : Kids V) → (i : Nat) → (n : Node V) → ks.AllGt b → (ks.setIdx i n).AllGt b
  | .nil, _, _, _ => trivial
  | .cons _ _ _ _, 0, _, h => h
  | .cons c v k r, i + 1, n, h => ⟨h.1, Kids.allGt_setIdx r i n h.2⟩

theorem Kids.allGt_eraseIdx {b : Nat} : (ks : Kids V) → (i : Nat) → ks.AllGt b → (ks.eraseIdx i).AllGt b
  | .nil, _, _ => trivial
  | .cons _ _ _ _, 0, h => h.2
  | .cons c v k r, i + 1, h => ⟨h.1, Kids.allGt_eraseIdx r i h.2⟩

theorem Kids.wf_setIdx (n : Node V) (hn : n.kids.WF) (ha : n.Alive) : (ks : Kids V) → (i : Nat) → ks.WF →
    (ks.setIdx i n).WF
  | .nil, _, _ => trivial
  | .cons c v k r, 0, h => ⟨hn, h.2.1, h.2.2.1, ha⟩
  | .cons c v k r, i + 1, h => ⟨h.1, Kids.wf_setIdx n hn ha r i h.2.1, Kids.allGt_setIdx r i n h.2.2.1, h.2.2.2⟩

theorem Kids.wf_eraseIdx : (ks : Kids V) → (i : Nat) → ks.WF → (ks.eraseIdx i).WF
  | .nil, _, _ => trivial
  | .cons c v k r, 0, h => h.2.1
  | .cons c v k r, i + 1, h => ⟨h.1, Kids.wf_eraseIdx r i h.2.1, Kids.allGt_eraseIdx r i h.2.2.1, h.2.2.2⟩

theorem Kids.find?_setIdx (n : Node V) {c : Nat} {x : Node V} : (ks : Kids V) → (i : Nat) → ks.WF → ks.get? i = some (c, x) →
    ∀ d, (ks.setIdx i n).find? d = if d = c then some n else ks.find? d
  | .nil, _, _, h, _ => by simp [Kids.get?] at h
  | .cons e v k r, 0, hw, h, d => by
    simp only [Kids.get?, Option.some.injEq, Prod.mk.injEq] at h
    obtain ⟨rfl, -⟩ := h
    simp only [Kids.setIdx, Kids.find?]
    by_cases hd : e = d
    · subst hd; simp
    · rw [if_neg hd, if_neg hd, if_neg (Ne.symm hd)]
  | .cons e v k r, i + 1, hw, h, d => by
    simp only [Kids.get?] at h
    have hlt := Kids.allGt_get hw.2.2.1 h
    simp only at hlt
    simp only [Kids.setIdx, Kids.find?]
    rw [Kids.find?_setIdx n r i hw.2.1 h d]
    by_cases hd : e = d
    · subst hd; rw [if_pos rfl, if_pos rfl, if_neg (by omega)]
    · rw [if_neg hd, if_neg hd]

theorem Kids.find?_eraseIdx {c : Nat} {x : Node V} : (ks : Kids V) → (i : Nat) → ks.WF → ks.get? i = some (c, x) →
    ∀ d, (ks.eraseIdx i).find? d = if d = c then none else ks.find? d
  | .nil, _, _, h, _ => by simp [Kids.get?] at h
  | .cons e v k r, 0, hw, h, d => by
    simp only [Kids.get?, Option.some.injEq, Prod.mk.injEq] at h
    obtain ⟨rfl, -⟩ := h
    simp only [Kids.eraseIdx]
    by_cases hd : d = e
    · subst hd; rw [if_pos rfl]; exact Kids.find?_of_allGt hw.2.2.1 d (Nat.le_refl _)
    · rw [if_neg hd]; conv_rhs => unfold Kids.find?
      rw [if_neg (Ne.symm hd)]
  | .cons e v k r, i + 1, hw, h, d => by
    simp only [Kids.get?] at h
    have hlt := Kids.allGt_get hw.2.2.1 h
    simp only at hlt
    simp only [Kids.eraseIdx, Kids.find?]
    rw [Kids.find?_eraseIdx r i hw.2.1 h d]
    by_cases hd : e = d
    · subst hd; rw [if_pos rfl, if_pos rfl, if_neg (by omega)]
    · rw [if_neg hd, if_neg hd]

theorem isEmpty_iff (ks : Kids V) : ks.isEmpty = true ↔ ks = .nil := by cases ks <;> simp [Kids.isEmpty]

theorem replAt_spec (k : Key) (n m : Node V) (h : n.kids.WF) (hf : findNode k n = some m) :
    (replAt k n ⟨none, m.kids⟩).kids.WF ∧
      ∀ k', denote (replAt k n ⟨none, m.kids⟩) k' = if k' = k then none else denote n k' := by
  induction k generalizing n with
  | nil =>
    cases hf
    refine ⟨h, ?_⟩
    intro k'
    cases k' with
    | nil => simp [replAt, denote]
    | cons c k' => simp [replAt, denote]
  | cons c k ih =>
    unfold findNode at hf
    rcases Kids.idxOf?_spec (c := c) n.kids with ⟨h1, h2⟩ | ⟨i, ch, h1, h2, h3⟩
    · rw [h2] at hf; cases hf
    · rw [h3] at hf
      have hw := Kids.find?_wf h h3
      obtain ⟨i1, i2⟩ := ih ch hw.1 hf
      have hr : replAt (c :: k) n ⟨none, m.kids⟩ =
          if (replAt k ch ⟨none, m.kids⟩).val.isNone ∧ (replAt k ch ⟨none, m.kids⟩).kids.isEmpty then
            ⟨n.val, n.kids.eraseIdx i⟩ else ⟨n.val, n.kids.setIdx i (replAt k ch ⟨none, m.kids⟩)⟩ := by
        conv_lhs => unfold replAt
        simp only [h1, h2]
      rw [hr]
      by_cases hd : (replAt k ch ⟨none, m.kids⟩).val.isNone = true ∧ (replAt k ch ⟨none, m.kids⟩).kids.isEmpty = true
      · rw [if_pos hd]
        refine ⟨Kids.wf_eraseIdx _ _ h, ?_⟩
        intro k'
        cases k' with
        | nil => simp [denote]
        | cons d k' =>
          simp only [denote]
          rw [Kids.find?_eraseIdx _ _ h h2 d]
          by_cases hdc : d = c
          · subst hdc
            rw [if_pos rfl]
            have h4 := i2 k'
            have h5 : denote (replAt k ch ⟨none, m.kids⟩) k' = none := by
              obtain ⟨a, b⟩ := hd
              rw [isEmpty_iff] at b
              cases k' with
              | nil => simpa [denote] using a
              | cons e k' => simp [denote, b, Kids.find?]
            rw [h5] at h4
            simp only [h3]
            by_cases hk : k' = k
            · simp [hk]
            · rw [if_neg hk] at h4; rw [if_neg (by simp [hk])]; exact h4
          · rw [if_neg hdc, if_neg (by simp [hdc])]
      · rw [if_neg hd]
        have ha : (replAt k ch ⟨none, m.kids⟩).Alive := by
          unfold Node.Alive
          by_contra hc
          apply hd
          simp only [not_or, ne_eq, not_not] at hc
          refine ⟨?_, by rw [hc.2]; rfl⟩
          cases hv : (replAt k ch ⟨none, m.kids⟩).val with
          | none => rfl
          | some x => rw [hv] at hc; simp at hc
        refine ⟨Kids.wf_setIdx _ i1 ha _ _ h, ?_⟩
        intro k'
        cases k' with
        | nil => simp [denote]
        | cons d k' =>
          simp only [denote]
          rw [Kids.find?_setIdx _ _ _ h h2 d]
          by_cases hdc : d = c
          · subst hdc
            rw [if_pos rfl]
            simp only [h3]
            rw [i2 k']
            by_cases hk : k' = k
            · simp [hk]
            · rw [if_neg hk, if_neg (by simp [hk])]
          · rw [if_neg hdc, if_neg (by simp [hdc])]

/-- `erase` of a key whose node exists. -/
theorem erase_found (k : Key) (n m : Node V) (hf : findNode k n = some m) :
    erase k n = match m.val with
      | none => (n, false)
      | some _ => (replAt k n ⟨none, m.kids⟩, true) := by
  obtain ⟨s', e1, -, e3, -⟩ := findStack_found k n m hf []
  unfold erase
  rw [e1]
  simp only
  cases m.val with
  | none => rfl
  | some x => simp only [e3]; rfl

/-- `erase` of a key whose path ends early acts like `erase` of a shorter key, or does nothing. -/
theorem erase_missing (k : Key) (n : Node V) (hf : findNode k n = none) :
    (erase k n = (n, false) ∧ ∃ d r, k = d :: r ∧ findNode [d] n = none) ∨
      ∃ q c d r, k = q ++ c :: d :: r ∧ (findNode (q ++ [c]) n).isSome ∧ findNode (q ++ [c, d]) n = none ∧
        erase k n = erase q n := by
  rcases findStack_missing k n hf [] with ⟨d, r, e1, e2, e3⟩ | ⟨q, c, d, r, m, ch, i, s', e1, e2, e3, e4, e5, e6⟩
  · left
    refine ⟨?_, d, r, e1, ?_⟩
    · unfold erase; rw [e3]
    · unfold findNode; rw [e2]
  · right
    refine ⟨q, c, d, r, e1, by rw [e3]; rfl, e4, ?_⟩
    unfold erase
    rw [e5, e6]

theorem erase_wf (k : Key) (n : Node V) (h : n.kids.WF) : (erase k n).1.kids.WF := by
  have key : ∀ q m, findNode q n = some m → (erase q n).1.kids.WF := by
    intro q m hm
    rw [erase_found q n m hm]
    cases m.val with
    | none => exact h
    | some x => exact (replAt_spec q n m h hm).1
  cases hf : findNode k n with
  | some m => exact key k m hf
  | none =>
    rcases erase_missing k n hf with ⟨e1, -⟩ | ⟨q, c, d, r, e1, e2, -, e4⟩
    · rw [e1]; exact h
    · rw [e4]
      obtain ⟨m, hm⟩ : ∃ m, findNode q n = some m := by
        rw [findNode_append] at e2
        cases hq : findNode q n with
        | none => rw [hq] at e2; simp at e2
        | some m => exact ⟨m, rfl⟩
      exact key q m hm

theorem run_wf (ops : List (Op V)) (n : Node V) (h : n.kids.WF) : (run n ops).kids.WF := by
  induction ops generalizing n with
  | nil => exact h
  | cons o os ih =>
    apply ih
    cases o with
    | insert k v => exact (insert_wf k v n h).1
    | erase k => exact erase_wf k n h
    | clear => trivial

end Mdds.Trie
