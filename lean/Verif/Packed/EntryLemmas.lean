import Verif.Packed.Lemmas

/-! Construction from sorted entries gives the trie of the entries. -/
namespace Mdds.Packed
open Mdds.Trie

variable {V : Type}

/-- Tails after `pos` units, of the keys that are long enough. -/
def suf (pos : Nat) (l : List (Key × V)) : List (Key × V) :=
  l.filterMap fun e => if pos ≤ e.1.length then some (e.1.drop pos, e.2) else none

/-- The trie after inserting entries in turn. -/
def insAll (n : Node V) (l : List (Key × V)) : Node V := l.foldl (fun t e => insert e.1 e.2 t) n

theorem insAll_append (n : Node V) (a b : List (Key × V)) : insAll n (a ++ b) = insAll (insAll n a) b := by
  simp [insAll]

theorem insAll_single (n : Node V) (x : Key × V) : insAll n [x] = insert x.1 x.2 n := rfl

theorem suf_append (pos : Nat) (a b : List (Key × V)) : suf pos (a ++ b) = suf pos a ++ suf pos b := by
  simp [suf]

theorem kidsOfList_append_cons (c : Nat) (n : Node V) : (l : List (Nat × Node V)) →
    (f : Node V → Node V) → (∀ x ∈ l, x.1 < c) →
    (kidsOfList (l ++ [(c, n)])).upd c f = kidsOfList (l ++ [(c, f n)])
  | [], f, _ => by simp [kidsOfList, Kids.upd]
  | (d, m) :: l, f, h => by
    have h1 : d < c := h (d, m) (by simp)
    simp only [List.cons_append, kidsOfList, Kids.upd, h1, if_true]
    rw [kidsOfList_append_cons c n l f (fun x hx => h x (by simp [hx]))]

theorem kidsOfList_upd_new (c : Nat) : (l : List (Nat × Node V)) → (f : Node V → Node V) → (∀ x ∈ l, x.1 < c) →
    (kidsOfList l).upd c f = kidsOfList (l ++ [(c, f ⟨none, .nil⟩)])
  | [], f, _ => by simp [kidsOfList, Kids.upd]
  | (d, m) :: l, f, h => by
    have h1 : d < c := h (d, m) (by simp)
    simp only [List.cons_append, kidsOfList, Kids.upd, h1, if_true]
    rw [kidsOfList_upd_new c l f (fun x hx => h x (by simp [hx]))]

/-- What the loop of `traverse_range` has built from the entries `l1` so far. -/
structure Inv (pos : Nat) (l1 : List (Key × V)) (s : TR V) : Prop where
  zero : s.char = 0 → s.kids = [] ∧ s.count = 0 ∧ suf (pos + 1) s.range = [] ∧
    insAll Trie.empty (suf pos l1) = ⟨s.val, .nil⟩
  pos : s.char ≠ 0 → 0 < s.count ∧ (∀ x ∈ s.kids, x.1 < s.char) ∧
    insAll Trie.empty (suf pos l1) =
      ⟨s.val, kidsOfList (s.kids ++ [(s.char, insAll Trie.empty (suf (pos + 1) s.range))])⟩ ∧
    ((suf (pos + 1) s.range).map fun e => (s.char :: e.1, e.2)).Sublist (suf pos l1) ∧
    (∃ e ∈ s.range, pos < e.1.length)
  sub : ∀ e ∈ s.range, e ∈ l1

/-- Sorted by key, no unit is 0. -/
def Sorted (l : List (Key × V)) : Prop := l.Pairwise (fun a b => a.1 ≤ b.1)

def NoZero (l : List (Key × V)) : Prop := ∀ e ∈ l, ∀ c ∈ e.1, c ≠ 0

theorem traverseLoop_spec (rec : List (Key × V) → Outcome (Node V)) (pos : Nat) (l : List (Key × V))
    (hs : Sorted (suf pos l)) (hz : NoZero l)
    (hrec : ∀ r : List (Key × V), (∀ e ∈ r, e ∈ l) → Sorted (suf (pos + 1) r) → (∃ e ∈ r, pos < e.1.length) →
      rec r = .ok (insAll Trie.empty (suf (pos + 1) r))) :
    (l2 l1 : List (Key × V)) → (s : TR V) → l1 ++ l2 = l → Inv pos l1 s →
    ∃ s', traverseLoop rec pos l2 s = .ok s' ∧ Inv pos l s'
  | [], l1, s, hl, hi => ⟨s, rfl, by simpa [← hl] using hi⟩
  | e :: es, l1, s, hl, hi => by
    have hl' : (l1 ++ [e]) ++ es = l := by rw [← hl]; simp
    have hmem : e ∈ l := by rw [← hl]; simp
    cases hd : e.1.drop pos with
    | nil =>
      have hlen : e.1.length ≤ pos := by simpa using hd
      have hs1 : suf (pos + 1) [e] = [] := by
        have : ¬ pos + 1 ≤ e.1.length := by omega
        simp [suf, this]
      by_cases h1 : e.1.length < pos
      · have hs0 : suf pos [e] = [] := by
          have : ¬ pos ≤ e.1.length := by omega
          simp [suf, this]
        simp only [traverseLoop, hd, h1, if_true]
        apply traverseLoop_spec rec pos l hs hz hrec es (l1 ++ [e]) _ hl'
        refine ⟨?_, ?_, ?_⟩
        · intro hc
          simpa [suf_append, hs0, hs1] using hi.zero hc
        · intro hc
          have := hi.pos hc
          simp only [suf_append, hs0, hs1, List.append_nil]
          refine ⟨this.1, this.2.1, this.2.2.1, this.2.2.2.1, ?_⟩
          obtain ⟨e', h2, h3⟩ := this.2.2.2.2
          exact ⟨e', by simp [h2], h3⟩
        · intro e' he'
          simp only [List.mem_append] at he' ⊢
          exact he'.imp (hi.sub e') id
      · have hs0 : suf pos [e] = [([], e.2)] := by
          have : pos ≤ e.1.length := by omega
          simp [suf, this, hd]
        simp only [traverseLoop, hd, h1, if_false]
        apply traverseLoop_spec rec pos l hs hz hrec es (l1 ++ [e]) _ hl'
        refine ⟨?_, ?_, ?_⟩
        · intro hc
          have := hi.zero hc
          simp only [suf_append, hs0, hs1, List.append_nil, insAll_append]
          refine ⟨this.1, this.2.1, this.2.2.1, ?_⟩
          rw [this.2.2.2]; rfl
        · intro hc
          have := hi.pos hc
          simp only [suf_append, hs0, hs1, List.append_nil, insAll_append]
          refine ⟨this.1, this.2.1, ?_, this.2.2.2.1.trans (List.sublist_append_left _ _), ?_⟩
          · rw [this.2.2.1]; rfl
          · obtain ⟨e', h2, h3⟩ := this.2.2.2.2
            exact ⟨e', by simp [h2], h3⟩
        · intro e' he'
          simp only [List.mem_append] at he' ⊢
          exact he'.imp (hi.sub e') id
    | cons c k =>
      have hlen : pos < e.1.length := by
        by_contra hle
        rw [List.drop_eq_nil_of_le (by omega)] at hd; cases hd
      have hs0 : suf pos [e] = [(c :: k, e.2)] := by
        have : pos ≤ e.1.length := by omega
        simp [suf, this, hd]
      have hs1 : suf (pos + 1) [e] = [(k, e.2)] := by
        have h1 : pos + 1 ≤ e.1.length := by omega
        have h2 : e.1.drop (pos + 1) = k := by rw [← List.drop_drop, hd]; rfl
        simp [suf, h1, h2]
      have hc0 : c ≠ 0 := hz e hmem c (List.mem_of_mem_drop (by rw [hd]; simp))
      by_cases hch : s.char = 0
      · simp only [traverseLoop, hd, hch, if_true]
        obtain ⟨h1, h2, h3, h4⟩ := hi.zero hch
        apply traverseLoop_spec rec pos l hs hz hrec es (l1 ++ [e]) _ hl'
        refine ⟨fun h => absurd h hc0, fun _ => ⟨by simp, by simp [h1], ?_, ?_, e, by simp, hlen⟩, ?_⟩
        · simp only [suf_append, hs0, hs1, insAll_append, h3, h4, h1, List.nil_append]
          rfl
        · simp only [suf_append, hs0, hs1, h3, List.nil_append, List.map_cons, List.map_nil]
          exact List.sublist_append_right _ _
        · intro e' he'
          simp only [List.mem_append] at he' ⊢
          exact he'.imp (hi.sub e') id
      obtain ⟨h1, h2, h3, h4, h5⟩ := hi.pos hch
      have hsort : Sorted (suf pos l1 ++ [(c :: k, e.2)]) := by
        have : Sorted (suf pos (l1 ++ [e])) := by
          rw [← hl'] at hs
          rw [suf_append] at hs
          exact (List.pairwise_append.1 hs).1
        rw [suf_append, hs0] at this
        exact this
      have hle : s.char ≤ c := by
        obtain ⟨e', g1, g2⟩ := h5
        have g3 : (s.char :: e'.1.drop (pos + 1), e'.2) ∈ suf pos l1 := by
          apply h4.subset
          simp only [List.mem_map]
          refine ⟨(e'.1.drop (pos + 1), e'.2), ?_, rfl⟩
          unfold suf
          rw [List.mem_filterMap]
          exact ⟨e', g1, by rw [if_pos (by omega)]⟩
        have := (List.pairwise_append.1 hsort).2.2 _ g3 (c :: k, e.2) (by simp)
        simp only at this
        by_contra hlt
        exact this (by rw [List.cons_lt_cons_iff]; left; omega)
      by_cases heq : s.char = c
      · subst heq
        simp only [traverseLoop, hd, hch, if_false, ne_eq, not_true_eq_false]
        apply traverseLoop_spec rec pos l hs hz hrec es (l1 ++ [e]) _ hl'
        refine ⟨fun h => absurd h hch, fun _ => ⟨by simp, h2, ?_, ?_, e, by simp, hlen⟩, ?_⟩
        · simp only [suf_append, hs0, hs1, insAll_append, h3]
          simp only [insAll_single]
          rw [show insert (s.char :: k) e.2 (⟨s.val, kidsOfList (s.kids ++ [(s.char, insAll Trie.empty (suf (pos + 1) s.range))])⟩ : Node V)
            = ⟨s.val, (kidsOfList (s.kids ++ [(s.char, insAll Trie.empty (suf (pos + 1) s.range))])).upd s.char (insert k e.2)⟩ from rfl,
            kidsOfList_append_cons _ _ _ _ h2]
        · simp only [suf_append, hs0, hs1, List.map_append]
          exact h4.append (List.Sublist.refl _)
        · intro e' he'
          simp only [List.mem_append] at he' ⊢
          exact he'.imp (hi.sub e') id
      · have hr : rec s.range = .ok (insAll Trie.empty (suf (pos + 1) s.range)) := by
          apply hrec
          · intro e' he'
            rw [← hl]
            simp [hi.sub e' he']
          · have : Sorted ((suf (pos + 1) s.range).map fun e => (s.char :: e.1, e.2)) :=
              List.Pairwise.sublist h4 (List.pairwise_append.1 hsort).1
            unfold Sorted at this ⊢
            rw [List.pairwise_map] at this
            refine this.imp ?_
            intro a b hab hlt
            exact hab (by rw [List.cons_lt_cons_iff]; right; exact ⟨rfl, hlt⟩)
          · exact h5
        simp only [traverseLoop, hd, hch, if_false, ne_eq, heq, not_false_eq_true, if_true, hr]
        apply traverseLoop_spec rec pos l hs hz hrec es (l1 ++ [e]) _ hl'
        have hlt : s.char < c := by omega
        have h2' : ∀ x ∈ s.kids ++ [(s.char, insAll Trie.empty (suf (pos + 1) s.range))], x.1 < c := by
          intro x hx
          rcases List.mem_append.1 hx with hx | hx
          · have := h2 x hx; omega
          · simp only [List.mem_singleton] at hx; subst hx; exact hlt
        refine ⟨fun h => absurd h hc0, fun _ => ⟨by simp, h2', ?_, ?_, e, by simp, hlen⟩, ?_⟩
        · simp only [suf_append, hs0, hs1, insAll_append, h3]
          simp only [insAll_single]
          rw [show insert (c :: k) e.2 (⟨s.val, kidsOfList (s.kids ++ [(s.char, insAll Trie.empty (suf (pos + 1) s.range))])⟩ : Node V)
            = ⟨s.val, (kidsOfList (s.kids ++ [(s.char, insAll Trie.empty (suf (pos + 1) s.range))])).upd c (insert k e.2)⟩ from rfl,
            kidsOfList_upd_new _ _ _ h2']
          rfl
        · simp only [suf_append, hs0, hs1, List.map_cons, List.map_nil]
          exact List.sublist_append_right _ _
        · intro e' he'
          simp only [List.mem_singleton] at he'
          subst he'; simp

theorem traverseRange_spec (fuel pos : Nat) (l : List (Key × V)) (hf : 0 < fuel) (hs : Sorted (suf pos l)) (hz : NoZero l)
    (hlen : ∀ e ∈ l, e.1.length < fuel + pos) :
    traverseRange fuel pos l = .ok (insAll Trie.empty (suf pos l)) := by
  induction fuel generalizing pos l with
  | zero => omega
  | succ fuel ih =>
    have hrec : ∀ r : List (Key × V), (∀ e ∈ r, e ∈ l) → Sorted (suf (pos + 1) r) → (∃ e ∈ r, pos < e.1.length) →
        traverseRange fuel (pos + 1) r = .ok (insAll Trie.empty (suf (pos + 1) r)) := by
      rintro r hr hsr ⟨e, he, hlt⟩
      have := hlen e (hr e he)
      apply ih
      · omega
      · exact hsr
      · exact fun e he => hz e (hr e he)
      · intro e he
        have := hlen e (hr e he)
        omega
    obtain ⟨s, h1, h2⟩ := traverseLoop_spec (traverseRange fuel (pos + 1)) pos l hs hz hrec l [] ⟨none, [], [], 0, 0⟩ rfl
      ⟨fun _ => ⟨rfl, rfl, rfl, rfl⟩, fun h => absurd rfl h, by simp⟩
    simp only [traverseRange, h1]
    by_cases hc : s.char = 0
    · obtain ⟨g1, g2, g3, g4⟩ := h2.zero hc
      rw [if_pos g2, g1, g4]; rfl
    · obtain ⟨g1, g2, g3, g4, g5⟩ := h2.pos hc
      rw [if_neg (by omega)]
      have hsr : Sorted (suf (pos + 1) s.range) := by
        have : Sorted ((suf (pos + 1) s.range).map fun e => (s.char :: e.1, e.2)) := List.Pairwise.sublist g4 hs
        unfold Sorted at this ⊢
        rw [List.pairwise_map] at this
        refine this.imp ?_
        intro a b hab hlt
        exact hab (by rw [List.cons_lt_cons_iff]; right; exact ⟨rfl, hlt⟩)
      rw [hrec _ h2.sub hsr g5]
      simp only
      rw [g3]

end Mdds.Packed
