import Verif.Trie.KeptLemmas
import Mathlib.Data.List.Lex

/-! # trie_map: the form of a kept iterator is determined by its key -/
namespace Mdds.Trie.Kept
open Mdds.Trie

variable {V : Type}

/-! ### ascending lists -/

theorem asc_ext : {a b : List (Key × V)} → Asc a → Asc b → (∀ e, e ∈ a ↔ e ∈ b) → a = b
  | [], [], _, _, _ => rfl
  | [], y :: b, _, _, h => by have := (h y).2 (by simp); simp at this
  | x :: a, [], _, _, h => by have := (h x).1 (by simp); simp at this
  | x :: a, y :: b, ha, hb, h => by
    unfold Asc at ha hb
    rw [List.pairwise_cons] at ha hb
    have hxy : x = y := by
      have h1 := (h x).1 (by simp)
      have h2 := (h y).2 (by simp)
      rw [List.mem_cons] at h1 h2
      rcases h1 with h1 | h1
      · exact h1
      · rcases h2 with h2 | h2
        · exact h2.symm
        · exact absurd (List.lt_trans (hb.1 x h1) (ha.1 y h2)) (List.lt_irrefl _)
    subst hxy
    congr 1
    apply asc_ext ha.2 hb.2
    intro e
    constructor
    · intro he
      have := (h e).1 (by simp [he])
      rw [List.mem_cons] at this
      rcases this with rfl | this
      · exact absurd (ha.1 _ he) (List.lt_irrefl _)
      · exact this
    · intro he
      have := (h e).2 (by simp [he])
      rw [List.mem_cons] at this
      rcases this with rfl | this
      · exact absurd (hb.1 _ he) (List.lt_irrefl _)
      · exact this

theorem asc_split {l : List (Key × V)} (h : Asc l) {i : Nat} {k : Key} {v : V} (hi : l[i]? = some (k, v)) :
    l.filter (fun e => decide (k < e.1)) = l.drop (i + 1) ∧ l.filter (fun e => decide (e.1 < k)) = l.take i := by
  obtain ⟨hlt, hge⟩ := List.getElem?_eq_some_iff.1 hi
  have hl : l = l.take i ++ (k, v) :: l.drop (i + 1) := by
    conv_lhs => rw [← List.take_append_drop i l, List.drop_eq_getElem_cons hlt, hge]
  have h' := h
  unfold Asc at h'
  rw [hl, List.pairwise_append, List.pairwise_cons] at h'
  obtain ⟨-, ⟨h2, -⟩, h3⟩ := h'
  have ht : ∀ e ∈ l.take i, e.1 < k := fun e he => h3 e he (k, v) (by simp)
  have hd : ∀ e ∈ l.drop (i + 1), k < e.1 := fun e he => h2 e he
  have n1 : ∀ e ∈ l.take i, ¬ k < e.1 := fun e he hc => List.lt_irrefl _ (List.lt_trans hc (ht e he))
  have n2 : ∀ e ∈ l.drop (i + 1), ¬ e.1 < k := fun e he hc => List.lt_irrefl _ (List.lt_trans hc (hd e he))
  constructor
  · conv_lhs => rw [hl]
    rw [List.filter_append, List.filter_cons_of_neg (by simp), List.filter_eq_nil_iff.2 (by simpa using n1),
      List.filter_eq_self.2 (by simpa using hd), List.nil_append]
  · conv_lhs => rw [hl]
    rw [List.filter_append, List.filter_cons_of_neg (by simp), List.filter_eq_self.2 (by simpa using ht),
      List.filter_eq_nil_iff.2 (by simpa using n2), List.append_nil]

theorem nextKey_eq {l : List (Key × V)} (h : Asc l) {i : Nat} {k : Key} {v : V} (hi : l[i]? = some (k, v)) :
    nextKey l k = l[i + 1]?.map (·.1) := by
  unfold nextKey
  rw [(asc_split h hi).1, List.head?_drop]

theorem prevKey_eq {l : List (Key × V)} (h : Asc l) {i : Nat} {k : Key} {v : V} (hi : l[i + 1]? = some (k, v)) :
    prevKey l k = l[i]?.map (·.1) := by
  obtain ⟨hlt, -⟩ := List.getElem?_eq_some_iff.1 hi
  unfold prevKey
  rw [(asc_split h hi).2, List.getLast?_take]
  simp
  rw [List.getElem?_eq_getElem (by omega)]
  rfl

theorem prevKey_zero {l : List (Key × V)} (h : Asc l) {k : Key} {v : V} (hi : l[0]? = some (k, v)) : prevKey l k = none := by
  unfold prevKey
  rw [(asc_split h hi).2]
  rfl

theorem lookup_entN (t : Node V) (hw : t.kids.WF) (k : Key) : lookup (entN [] t) k = denote t k := by
  unfold lookup
  cases h : (entN [] t).find? (fun e => e.1 = k) with
  | none =>
    rw [List.find?_eq_none] at h
    cases hd : denote t k with
    | none => rfl
    | some v =>
      have := h (k, v) (by rw [mem_entN t [] hw]; exact ⟨k, rfl, hd⟩)
      simp at this
  | some e =>
    have h1 := List.mem_of_find?_eq_some h
    have h2 := List.find?_some h
    rw [mem_entN t [] hw] at h1
    obtain ⟨q, h3, h4⟩ := h1
    simp only [decide_eq_true_eq, List.nil_append] at h2 h3
    rw [← h2, h3, h4]
    rfl

theorem mem_entries (t : Node V) (hw : t.kids.WF) (k : Key) (v : V) : (k, v) ∈ entN [] t ↔ denote t k = some v := by
  rw [mem_entN t [] hw]
  constructor
  · rintro ⟨q, h1, h2⟩
    simp only [List.nil_append] at h1 h2
    rw [h1, h2]
  · intro h; exact ⟨k, rfl, h⟩

theorem entN_insert (t : Node V) (hw : t.kids.WF) (k : Key) (v : V) : entN [] (insert k v t) = sInsert k v (entN [] t) := by
  have hw' := insert_wf k v t hw
  have hasc := asc_entN [] t hw
  apply asc_ext (asc_entN [] _ hw'.1)
  · unfold Asc sInsert
    unfold Asc at hasc
    rw [List.pairwise_append, List.pairwise_cons]
    refine ⟨hasc.filter _, ⟨?_, hasc.filter _⟩, ?_⟩
    · intro e he; simpa using (List.mem_filter.1 he).2
    · intro a ha b hb
      have h1 : a.1 < k := by simpa using (List.mem_filter.1 ha).2
      rw [List.mem_cons] at hb
      rcases hb with rfl | hb
      · exact h1
      · exact List.lt_trans h1 (by simpa using (List.mem_filter.1 hb).2)
  · rintro ⟨k', v'⟩
    rw [mem_entries _ hw'.1, denote_insert k v t hw]
    unfold sInsert
    rw [List.mem_append, List.mem_cons, List.mem_filter, List.mem_filter, mem_entries _ hw]
    simp only [decide_eq_true_eq, Prod.mk.injEq]
    by_cases hk : k' = k
    · subst hk
      simp [List.lt_irrefl, eq_comm]
    · rw [if_neg hk]
      rcases lt_trichotomy k' k with h | h | h
      · simp only [h, hk, and_true, false_and, false_or]
        exact ⟨Or.inl, fun x => x.elim id (·.1)⟩
      · exact absurd h hk
      · simp only [h, hk, and_true, false_and, false_or]
        exact ⟨Or.inr, fun x => x.elim (·.1) id⟩

theorem entN_of_erase (t t' : Node V) (hw : t.kids.WF) (hw' : t'.kids.WF) (k : Key)
    (h : ∀ k', denote t' k' = if k' = k then none else denote t k') : entN [] t' = sErase k (entN [] t) := by
  have hasc := asc_entN [] t hw
  apply asc_ext (asc_entN [] _ hw')
  · exact List.Pairwise.filter _ hasc
  · rintro ⟨k', v'⟩
    unfold sErase
    rw [mem_entries _ hw', h, List.mem_filter, mem_entries _ hw]
    by_cases hk : k' = k
    · simp [hk]
    · simp [hk]

/-! ### the first unit below a key -/

/-- Position for a unit. -/
def ofUnit : Option Nat → Pos
  | some c => .child c
  | none => .end_

theorem unitAfter_some (k k' : Key) (c : Nat) : unitAfter k k' = some c ↔ ∃ q, k' = k ++ c :: q := by
  unfold unitAfter
  constructor
  · intro h
    split at h
    · rename_i hp
      obtain ⟨t, rfl⟩ := hp
      rw [List.drop_left] at h
      cases t with
      | nil => simp at h
      | cons a t => simp only [List.head?_cons, Option.some.injEq] at h; exact ⟨t, by rw [h]⟩
    · cases h
  · rintro ⟨q, rfl⟩
    rw [if_pos ⟨_, rfl⟩, List.drop_left]
    rfl

theorem mem_below (t : Node V) (hw : t.kids.WF) (k : Key) (c : Nat) :
    c ∈ (entN [] t).filterMap (fun e => unitAfter k e.1) ↔ (findNode (k ++ [c]) t).isSome := by
  rw [findNode_isSome_iff (k ++ [c]) t hw (by simp), List.mem_filterMap]
  unfold HasPrefix
  constructor
  · rintro ⟨⟨k', v⟩, h1, h2⟩
    rw [unitAfter_some] at h2
    obtain ⟨q, h2⟩ := h2
    simp only at h2
    rw [mem_entries _ hw, h2] at h1
    exact ⟨q, by simp [h1]⟩
  · rintro ⟨r, hr⟩
    cases hd : denote t (k ++ [c] ++ r) with
    | none => exact absurd hd hr
    | some v =>
      refine ⟨(k ++ [c] ++ r, v), (mem_entries _ hw _ _).2 hd, ?_⟩
      rw [unitAfter_some]
      exact ⟨r, by simp⟩

theorem find?_allGt_le {c d : Nat} {ks : Kids V} (h : ks.AllGt c) (hf : (ks.find? d).isSome) : c < d := by
  by_contra hc
  rw [Kids.find?_of_allGt h d (by omega)] at hf
  cases hf

theorem first_eq (t n : Node V) (hw : t.kids.WF) (k : Key) (hf : findNode k t = some n) :
    first n.kids = ofUnit (firstBelow (entN [] t) k) := by
  have hnw := (findNode_wf k t n hw hf).1
  have hmem : ∀ c, c ∈ (entN [] t).filterMap (fun e => unitAfter k e.1) ↔ (n.kids.find? c).isSome := by
    intro c
    rw [mem_below t hw, findNode_append, hf]
    simp only [Option.bind_some, findNode]
    cases n.kids.find? c <;> simp
  unfold firstBelow
  cases hk : n.kids with
  | nil =>
    have : (entN [] t).filterMap (fun e => unitAfter k e.1) = [] := by
      rw [List.eq_nil_iff_forall_not_mem]
      intro c hc
      rw [hmem, hk] at hc
      simp [Kids.find?] at hc
    rw [this]
    rfl
  | cons c v ks r =>
    rw [hk] at hnw
    have : ((entN [] t).filterMap (fun e => unitAfter k e.1)).min? = some c := by
      rw [List.min?_eq_some_iff]
      refine ⟨(hmem c).2 (by simp [hk, Kids.find?]), ?_⟩
      intro d hd
      rw [hmem, hk] at hd
      unfold Kids.find? at hd
      split at hd
      · omega
      · exact Nat.le_of_lt (find?_allGt_le hnw.2.2.1 hd)
    rw [this]
    rfl

/-! ### canonical iterators -/

/-- The items below the top, for the reversed key: each points to the next unit of the key. -/
def canonRev : List Nat → List Item
  | [] => []
  | c :: r => ⟨.live r.reverse, .child c⟩ :: canonRev r

/-- The iterator at a key. -/
def canonIt (p : Pos) (k : Key) : It := ⟨⟨.live k, p⟩ :: canonRev k.reverse, k, k, .live k, .normal⟩

theorem kept_canon {root : Node V} {n : Node V} {j : Nat} {st : Stack V} {buf : Key} (h : Valid root [] ((n, j) :: st) buf) :
    kept ((n, j) :: st) buf = ⟨.live buf, posAt n.kids j⟩ :: canonRev buf.reverse := by
  rw [kept_cons]
  congr 1
  generalize hs : (n, j) :: st = s at h
  induction h generalizing n j st with
  | base i => cases hs; rfl
  | @push p i st' buf c m j' h hg ih =>
    cases hs
    rw [List.dropLast_concat, kept_cons, ih rfl, posAt_get hg, List.reverse_append]
    simp [canonRev]

/-- The kept iterator that belongs to an iterator of `Model.lean`. -/
def keptIt (it : Iter V) : It := ⟨kept it.stack it.buf, it.buf, it.buf, .live it.buf, it.kind⟩

theorem iterAt_canon {root : Node V} (hw : root.kids.WF) {it : Iter V} {i : Nat} (h : IterAt root [] it i) :
    (∃ v, (entN [] root)[i]? = some (it.buf, v)) ∧
      keptIt it = canonIt (ofUnit (firstBelow (entN [] root) it.buf)) it.buf := by
  obtain ⟨e, h1, h2⟩ := h.lt
  obtain ⟨hk, n, st, hs, hv, hsome, -⟩ := h
  obtain ⟨x, hx⟩ := Option.isSome_iff_exists.1 hsome
  constructor
  · refine ⟨x, ?_⟩
    rw [h1]
    simp only [Trie.deref, hk, hs, hx, Option.map_some, Option.some.injEq] at h2
    rw [h2]
  · unfold keptIt canonIt
    rw [hs, kept_canon hv, hk, ← first_eq root n hw it.buf (Valid.findNode hw hv)]
    rfl

theorem iterAt_exists (root : Node V) (k : Key) (v : V) (hk : denote root k = some v) :
    ∃ it i, IterAt root [] it i ∧ it.buf = k := by
  obtain ⟨m, hf, hm⟩ : ∃ m, findNode k root = some m ∧ m.val = some v := by
    cases hf : findNode k root with
    | none => rw [denote_findNode, hf] at hk; simp at hk
    | some m => refine ⟨m, rfl, ?_⟩; rw [denote_findNode, hf] at hk; exact hk
  obtain ⟨s', -, -, -, e4⟩ := findStack_found k root m hf []
  have hv := e4 root [] [] (.base 0)
  simp only [List.nil_append] at hv
  exact ⟨⟨(m, 0) :: s', k, .normal⟩, _, ⟨rfl, m, s', rfl, hv, by simp [hm], rfl⟩, rfl⟩

/-- Where an iterator is after it has reached the end. -/
def atEnd (it : It) : It := { it with stack := [⟨.live [], .end_⟩], buf := [], kind := .end_ }

/-- The iterator for a cursor; `it` is the iterator before the call. -/
def repr (l : List (Key × V)) (it : It) : Option Key → It
  | some k => canonIt (ofUnit (firstBelow l k)) k
  | none => atEnd it

theorem settle_walk {root : Node V} (hw : root.kids.WF) {it' : Iter V} {i : Nat} (h : IterAt root [] it' i) (it : It) :
    settle it (walk it') = .ok (canonIt (ofUnit (firstBelow (entN [] root) it'.buf)) it'.buf) := by
  have hc := (iterAt_canon hw h).2
  obtain ⟨hk, n, st, hs, hv, -⟩ := h
  rw [← hc]
  unfold settle walk keptIt
  rw [hk, hs, kept_cons]
  simp

theorem inc_canon (root : Node V) (hw : root.kids.WF) (k : Key) (v : V) (hk : denote root k = some v) :
    inc root (canonIt (ofUnit (firstBelow (entN [] root) k)) k) =
      .ok (repr (entN [] root) (canonIt (ofUnit (firstBelow (entN [] root) k)) k) (nextKey (entN [] root) k)) := by
  obtain ⟨it, i, hat, rfl⟩ := iterAt_exists root k v hk
  obtain ⟨⟨v', hi⟩, hc⟩ := iterAt_canon hw hat
  rw [nextKey_eq (asc_entN [] root hw) hi]
  generalize hcan : canonIt (ofUnit (firstBelow (entN [] root) it.buf)) it.buf = can at hc ⊢
  have hst : can.stack = kept it.stack it.buf := by rw [← hc]; rfl
  have hbuf : can.buf = it.buf := by rw [← hc]; rfl
  have hloop : incLoop root (rounds root) can.stack can.buf = (Trie.inc (rounds root) it).map walk := by
    rw [hst, hbuf]
    obtain ⟨-, n, st, hs, hv, -⟩ := hat
    obtain ⟨stk, buf, kd⟩ := it
    simp only at hs hv ⊢
    subst hs
    exact incLoop_kept hw _ n st buf kd hv
  unfold inc
  rw [hloop]
  rcases hat.inc (fuel := rounds root) (by unfold rounds; omega) with ⟨e1, e2⟩ | ⟨it', e1, e2⟩
  · rw [e2, List.getElem?_eq_none (by omega)]
    simp only [Outcome.map, walk, endIter, kept, settle, if_true, repr, Option.map_none, atEnd, posAt_length]
  · rw [e1]
    simp only [Outcome.map]
    rw [settle_walk hw e2]
    obtain ⟨⟨v'', h1⟩, -⟩ := iterAt_canon hw e2
    rw [h1]
    rfl

theorem dec_canon (root : Node V) (hr : Reachable root) (k k' : Key) (v : V) (hk : denote root k = some v)
    (he : denote root [] = none) (hp : prevKey (entN [] root) k = some k') (hb : BackOk (entN [] root) k k') :
    dec root (canonIt (ofUnit (firstBelow (entN [] root) k)) k) = .ok (canonIt (ofUnit (firstBelow (entN [] root) k')) k') := by
  have hw := hr.wf
  obtain ⟨it, i, hat, rfl⟩ := iterAt_exists root k v hk
  obtain ⟨⟨v', hi⟩, hc⟩ := iterAt_canon hw hat
  cases i with
  | zero => rw [prevKey_zero (asc_entN [] root hw) hi] at hp; cases hp
  | succ i =>
  rw [prevKey_eq (asc_entN [] root hw) hi] at hp
  cases hge : (entN [] root)[i]? with
  | none => rw [hge] at hp; cases hp
  | some e =>
  obtain ⟨k1, v1⟩ := e
  rw [hge] at hp
  simp only [Option.map_some, Option.some.injEq] at hp
  subst hp
  have hd1 : denote root k1 = some v1 := (mem_entries root hw _ _).1 (List.mem_of_getElem? hge)
  have hne : k1 ≠ [] := by rintro rfl; rw [he] at hd1; cases hd1
  generalize hcan : canonIt (ofUnit (firstBelow (entN [] root) it.buf)) it.buf = can at hc ⊢
  have hst : can.stack = kept it.stack it.buf := by rw [← hc]; rfl
  have hbuf : can.buf = it.buf := by rw [← hc]; rfl
  have hkind : can.kind = it.kind := by rw [← hc]; rfl
  have hwalk : decWalk root can = (Trie.dec (rounds root) it).map walk := by
    obtain ⟨-, n, st, hs, hv, -⟩ := hat
    obtain ⟨stk, buf, kd⟩ := it
    simp only at hs hv hst hbuf hkind
    subst hs
    have := decWalk_kept hw n 0 st can (by rw [hst, hbuf]) (by rw [hbuf]; exact hv) (by omega)
    rw [this, hbuf, hkind]
  have key : ∃ it', Trie.dec (rounds root) it = .ok it' ∧ IterAt root [] it' i := by
    have hf : root.kids.nodes < rounds root := by unfold rounds; omega
    by_cases hleaf : ∀ n st, it.stack = n :: st → n.1.kids = .nil
    · exact hat.dec_leaf hw hf hleaf
    · simp only [not_forall] at hleaf
      obtain ⟨n, st, hs, hn⟩ := hleaf
      refine hat.dec_inner hw hf _ hge ?_ ?_
      · intro n' st' hs'
        rw [hs] at hs'
        cases hs'
        exact hn
      · rcases hb with hb | hb | hb
        · exfalso
          obtain ⟨x, -, c, q, hq⟩ := at_node root it _ hat n st hs hw hn
          cases hd : denote root (it.buf ++ c :: q) with
          | none => exact hq hd
          | some y =>
            have := hb (it.buf ++ c :: q, y) ((mem_entries root hw _ _).2 hd) ⟨_, rfl⟩
            simp at this
        · exact Or.inl ⟨hne, hb⟩
        · exact Or.inr ⟨hb, hne⟩
  obtain ⟨it', e1, e2⟩ := key
  unfold dec
  rw [hwalk, e1]
  simp only [Outcome.map]
  rw [settle_walk hw e2]
  obtain ⟨⟨v2, h2⟩, -⟩ := iterAt_canon hw e2
  rw [hge] at h2
  simp only [Option.some.injEq, Prod.mk.injEq] at h2
  rw [h2.1]

theorem dec_end_canon (root : Node V) (hw : root.kids.WF) (he : root.val = none) (it : It)
    (h1 : it.stack = [⟨.live [], .end_⟩]) (h2 : it.buf = []) (h3 : it.kind = .end_) (k : Key)
    (hl : (entN [] root).getLast?.map (·.1) = some k) :
    dec root it = .ok (canonIt (ofUnit (firstBelow (entN [] root) k)) k) := by
  have hne : root.kids ≠ .nil := by
    intro hn
    simp [entN, he, hn, optEntry, entK] at hl
  obtain ⟨it', e1, e2⟩ := dec_end root [] (rounds root) hw (by unfold rounds; omega) he hne
  have hwalk := decWalk_kept hw root root.kids.length [] it (by rw [h1, h2, kept_cons, posAt_length]; rfl)
    (by rw [h2]; exact .base _) (Nat.le_refl _)
  unfold dec
  rw [hwalk, h2, h3]
  have : (⟨[(root, root.kids.length)], [], Kind.end_⟩ : Iter V) = endIter root [] := rfl
  rw [this, e1]
  simp only [Outcome.map]
  rw [settle_walk hw e2]
  obtain ⟨⟨v2, h4⟩, -⟩ := iterAt_canon hw e2
  rw [List.getLast?_eq_getElem?, h4] at hl
  simp only [Option.map_some, Option.some.injEq] at hl
  rw [hl]

/-! ### begin and find -/

theorem leftmost_kept {root : Node V} (hw : root.kids.WF) (fuel : Nat) (n : Node V) (st : Stack V) (buf : Key)
    (hv : Valid root [] ((n, 0) :: st) buf) (hf : n.kids.nodes < fuel) :
    leftmost root fuel (kept ((n, 0) :: st) buf) buf = (Trie.leftmost n.val n.kids ((n, 0) :: st) buf).map keptIt := by
  induction fuel generalizing n st buf with
  | zero => omega
  | succ fuel ih =>
    rw [kept_cons]
    unfold leftmost
    simp only [node_valid hw hv]
    obtain ⟨val, kids⟩ := n
    cases val with
    | some x => cases kids <;> simp [Trie.leftmost, Outcome.map, mkIt, keptIt, kept_cons]
    | none =>
      cases kids with
      | nil => simp [Trie.leftmost, Outcome.map, posAt, Kids.get?]
      | cons c v k r =>
        have hg : (Kids.cons c v k r).get? 0 = some (c, ⟨v, k⟩) := rfl
        simp only [posAt_get hg, Option.isSome_none, Bool.false_eq_true, if_false]
        rw [pushChild_ok hw hv hg]
        simp only [Trie.leftmost]
        have := ih ⟨v, k⟩ ((⟨none, .cons c v k r⟩, 0) :: st) (buf ++ [c]) (.push 0 hv hg) (by
          simp only [Kids.nodes] at hf ⊢; omega)
        rw [kept_push, posAt_get hg] at this
        exact this

theorem begin_canon (root : Node V) (hw : root.kids.WF) (he : root.val = none) :
    begin_ root = .ok (match (entN [] root).head?.map (·.1) with
      | some k => canonIt (ofUnit (firstBelow (entN [] root) k)) k
      | none => endIt) := by
  have hkept : begin_ root = (Trie.begin_ root).map fun it => if root.kids.isEmpty then endIt else keptIt it := by
    unfold begin_ Trie.begin_
    cases hk : root.kids with
    | nil => rfl
    | cons c v k r =>
      have hg : root.kids.get? 0 = some (c, ⟨v, k⟩) := by rw [hk]; rfl
      have hv : Valid root [] [(root, 0)] [] := .base 0
      simp only
      rw [pushChild_ok hw hv hg]
      simp only [List.nil_append, Kids.isEmpty, Bool.false_eq_true, if_false]
      have hv' : Valid root [] [(⟨v, k⟩, 0), (root, 0)] ([] ++ [c]) := .push 0 hv hg
      have := leftmost_kept hw (rounds root) ⟨v, k⟩ [(root, 0)] ([] ++ [c]) hv' (by
        unfold rounds; rw [hk]; simp only [Kids.nodes]; omega)
      rw [kept_push, posAt_get hg] at this
      exact this
  rw [hkept]
  rcases begin_spec root hw with ⟨e1, e2⟩ | ⟨e1, it, e2, e3⟩
  · rw [e2]
    simp [Outcome.map, e1, Kids.isEmpty, entN, he, optEntry, entK]
  · rw [e2]
    obtain ⟨⟨v, h1⟩, h2⟩ := iterAt_canon hw e3
    rw [he] at h1
    simp only [optEntry, List.length_nil] at h1
    have hne : root.kids.isEmpty = false := by
      cases h : root.kids.isEmpty with
      | false => rfl
      | true => exact absurd ((isEmpty_iff _).1 h) e1
    rw [List.head?_eq_getElem?, h1]
    simp only [Outcome.map, hne, Bool.false_eq_true, if_false, Option.map_some, h2]

theorem findStack_kept {root : Node V} (hw : root.kids.WF) (k : Key) (n : Node V) (j : Nat) (st : Stack V) (p : Key)
    (hv : Valid root [] ((n, j) :: st) p) :
    ∃ b, findStack k p n (kept st p.dropLast) = kept (Trie.findStack k n st) b ∧
      (Trie.findStack k n st = [] ∨ ∃ m i s', Trie.findStack k n st = (m, i) :: s' ∧ Valid root [] ((m, i) :: s') b) := by
  induction k generalizing n j st p with
  | nil => exact ⟨p, rfl, Or.inr ⟨n, 0, st, rfl, hv.repos 0⟩⟩
  | cons c k ih =>
    unfold findStack Trie.findStack
    rcases Kids.idxOf?_spec (c := c) n.kids with ⟨h1, h2⟩ | ⟨i, ch, h1, h2, h3⟩
    · simp only [h1, h2]
      refine ⟨p.dropLast, rfl, ?_⟩
      cases hv with
      | base => exact Or.inl rfl
      | @push q i st' buf c' _ _ hv hg =>
        right
        refine ⟨q, i, st', rfl, ?_⟩
        rw [List.dropLast_concat]; exact hv
    · simp only [h1, h2, h3]
      have hv' : Valid root [] ((ch, 0) :: (n, i) :: st) (p ++ [c]) := .push 0 (hv.repos i) h2
      obtain ⟨b, e1, e2⟩ := ih ch 0 ((n, i) :: st) (p ++ [c]) hv'
      rw [List.dropLast_concat, kept_cons, posAt_get h2] at e1
      exact ⟨b, e1, e2⟩

theorem valid_unique {root : Node V} {pre : Key} {s : Stack V} {a b : Key} (ha : Valid root pre s a) (hb : Valid root pre s b) : a = b := by
  induction ha generalizing b with
  | base i => cases hb; rfl
  | push j h hg ih =>
    cases hb with
    | push _ h' hg' =>
      rw [ih h']
      rw [hg] at hg'
      cases hg'
      rfl

theorem canonRev_key (x : Item) (r : List Nat) : stackKey (x :: canonRev r) = r.reverse := by
  unfold stackKey
  rw [List.tail_cons]
  induction r with
  | nil => rfl
  | cons c r ih =>
    simp only [canonRev, List.reverse_cons, List.filterMap_append, ih]
    rfl

theorem find_canon (root : Node V) (hr : Reachable root) (k : Key) (hs : SafeKey (entN [] root) k) :
    find root k = .ok (if (denote root k).isSome then canonIt (ofUnit (firstBelow (entN [] root) k)) k else endIt) := by
  have hw := hr.wf
  have hsafe : Safe (denote root) k := by
    unfold SafeKey at hs
    rw [lookup_entN root hw] at hs
    rcases hs with h | h
    · left; intro hc; rw [hc] at h; cases h
    · right; intro q c d r e; rw [← lookup_entN root hw]; exact h q c d r e
  obtain ⟨b, e1, e2⟩ := findStack_kept hw k root 0 [] [] (.base 0)
  simp only [kept] at e1
  unfold find
  rw [e1]
  cases hd : denote root k with
  | some v =>
    obtain ⟨m, hf, hm⟩ : ∃ m, findNode k root = some m ∧ m.val = some v := by
      cases hf : findNode k root with
      | none => rw [denote_findNode, hf] at hd; simp at hd
      | some m => refine ⟨m, rfl, ?_⟩; rw [denote_findNode, hf] at hd; exact hd
    obtain ⟨s', h1, -, -, h4⟩ := findStack_found k root m hf []
    have hv := h4 root [] [] (.base 0)
    simp only [List.nil_append] at hv
    rcases e2 with e2 | ⟨m', i, s'', e2, e3⟩
    · rw [h1] at e2; cases e2
    · rw [h1] at e2
      cases e2
      obtain rfl := valid_unique e3 hv
      rw [h1, kept_canon hv]
      simp only [node_valid hw hv, hm, Option.isSome_some, if_true]
      have hkey : stackKey (⟨.live b, posAt m.kids 0⟩ :: canonRev b.reverse) = b := by
        rw [canonRev_key, List.reverse_reverse]
      rw [hkey, ← first_eq root m hw b hf]
      rfl
  | none =>
    have := (C17_find_partial root hr k hsafe).2 hd
    unfold Trie.find at this
    rcases e2 with e2 | ⟨m, i, s', e2, e3⟩
    · rw [e2]; simp [kept]
    · rw [e2, kept_cons]
      simp only [node_valid hw e3]
      rw [e2] at this
      simp only at this
      cases hm : m.val with
      | none => simp
      | some x => rw [hm] at this; simp [endIter] at this

end Mdds.Trie.Kept
