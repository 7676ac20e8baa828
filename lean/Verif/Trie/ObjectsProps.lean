import Verif.Trie.ObjectsSpec
import Verif.Trie.KeptProps

/-! # trie_map: several maps, kept search results and node handles (C76) -/
namespace Mdds.Trie.Obj
open Mdds.Trie Mdds.Trie.Kept

variable {V : Type}

/-! ### nodes and entries with a prefix -/

theorem mem_under (q : Key) (l : List (Key × V)) (e : Key × V) : e ∈ under q l ↔ e ∈ l ∧ q <+: e.1 := by
  simp [under]

theorem under_ne_nil (t : Node V) (hw : t.kids.WF) (q : Key) : under q (entN [] t) ≠ [] ↔ HasPrefix (denote t) q := by
  rw [List.ne_nil_iff_exists_cons]
  constructor
  · rintro ⟨⟨k, v⟩, l, h⟩
    have : (k, v) ∈ under q (entN [] t) := by rw [h]; simp
    rw [mem_under, mem_entries t hw] at this
    obtain ⟨h1, r, h2⟩ := this
    simp only at h2
    exact ⟨r, by rw [h2, h1]; simp⟩
  · rintro ⟨r, h⟩
    obtain ⟨v, hv⟩ := Option.ne_none_iff_exists'.1 h
    have : (q ++ r, v) ∈ under q (entN [] t) := by
      rw [mem_under, mem_entries t hw]; exact ⟨hv, r, rfl⟩
    cases hl : under q (entN [] t) with
    | nil => rw [hl] at this; cases this
    | cons e l => exact ⟨e, l, rfl⟩

theorem found_iff (t : Node V) (hw : t.kids.WF) (q : Key) (hq : q ≠ []) :
    (findNode q t).isSome ↔ under q (entN [] t) ≠ [] := by
  rw [under_ne_nil t hw, findNode_isSome_iff q t hw hq]

theorem asc_filter {l : List (Key × V)} (h : Asc l) (f : Key × V → Bool) : Asc (l.filter f) := List.Pairwise.filter f h

theorem under_entN (t : Node V) (hw : t.kids.WF) (q : Key) (m : Node V) (hf : findNode q t = some m) :
    under q (entN [] t) = entN q m := by
  have hm := findNode_wf q t m hw hf
  apply asc_ext (asc_filter (asc_entN [] t hw) _) (asc_entN q m hm.1)
  rintro ⟨k, v⟩
  rw [← under, mem_under, mem_entries t hw, mem_entN m q hm.1]
  constructor
  · rintro ⟨h1, r, h2⟩
    refine ⟨r, h2.symm, ?_⟩
    simp only at h2
    rw [← h2, denote_findNode, findNode_append, hf] at h1
    rw [denote_findNode]; exact h1
  · rintro ⟨r, h1, h2⟩
    simp only at h1 h2
    refine ⟨?_, r, h1.symm⟩
    rw [h1, denote_findNode, findNode_append, hf]
    rw [denote_findNode] at h2; exact h2

theorem alive_of (n : Node V) (pre : Key) (h : entN pre n ≠ []) : n.Alive := by
  by_contra hc
  simp only [Node.Alive, not_or, ne_eq, not_not] at hc
  apply h
  unfold entN
  rw [hc.2]
  cases hv : n.val with
  | none => rfl
  | some x => rw [hv] at hc; simp at hc

theorem loop_ok (n : Node V) (pre : Key) (hw : n.kids.WF) (h : entN pre n ≠ []) : loop n pre = .ok (entN pre n) := by
  obtain ⟨it, e1, e2⟩ := searchBegin_spec n pre hw (alive_of n pre h)
  unfold loop
  rw [e1]
  simp only
  rw [collect_spec _ _ it 0 e2 (by omega) (by rw [length_entN]; omega)]
  rfl

/-- The loop of the model has enough rounds: more rounds give the same answer. -/
theorem loop_enough (n : Node V) (pre : Key) (hw : n.kids.WF) (h : entN pre n ≠ []) (fuel : Nat)
    (hf : n.kids.nodes + size n < fuel) :
    (searchBegin n pre).bind (fun it => collect fuel fuel it (endIter n pre)) = loop n pre := by
  rw [loop_ok n pre hw h]
  obtain ⟨it, e1, e2⟩ := searchBegin_spec n pre hw (alive_of n pre h)
  rw [e1]
  show collect fuel fuel it (endIter n pre) = _
  rw [collect_spec _ _ it 0 e2 (by omega) (by rw [length_entN]; omega)]
  rfl

theorem eq_entries (t u : Node V) (ht : t.kids.WF) (hu : u.kids.WF) :
    (∀ k, denote t k = denote u k) ↔ entN [] t = entN [] u := by
  constructor
  · intro h
    apply asc_ext (asc_entN [] t ht) (asc_entN [] u hu)
    rintro ⟨k, v⟩
    rw [mem_entries t ht, mem_entries u hu, h]
  · intro h k
    rw [← lookup_entN t ht, ← lookup_entN u hu, h]

/-! ### the relation -/

/-- Each object has its own contents. -/
structure SOk (s : SWorld V) : Prop where
  inj : ∀ c d a, s.holds c = some a → s.holds d = some a → c = d
  lt : ∀ c a, s.holds c = some a → a < s.next

def RelP (s : SWorld V) (r : Ref) : Place → Prop
  | .nothing => r = .null
  | .whole c => r = .root c
  | .part a q => r = .inner a q ∧ q ≠ [] ∧ ∃ l, s.body a = some l ∧ under q l ≠ []
  | .gone => True

/-- The node of a search result is the node of its prefix. -/
def Named (y : SVar) : Prop := ∀ pre, y.search = some pre → y.place ≠ .nothing → y.place ≠ .gone → y.place.key = pre

def RelV (s : SWorld V) : Option Var → Option SVar → Prop
  | none, none => True
  | some x, some y => x.search = y.search ∧ Named y ∧ RelP s x.ref y.place
  | _, _ => False

/-- Tree and entries. -/
def RelT (t : Option (Node V)) (l : List (Key × V)) : Prop := ∃ t', t = some t' ∧ Reachable t' ∧ entN [] t' = l

structure Core (w : World V) (s : SWorld V) : Prop where
  holds : w.holds = s.holds
  next : w.next = s.next
  body : ∀ a l, s.body a = some l → RelT (w.tree a) l
  vars : ∀ i, RelV s (w.vars i) (s.vars i)

def Trees (w : World V) : Prop := ∀ c a, w.holds c = some a → (w.tree a).isSome

theorem rel_mark (s : SWorld V) (a : Nat) (t : Option (Node V)) (l : Option (List (Key × V)))
    (h : ∀ l', l = some l' → RelT t l') (r : Ref) (p : Place) (hr : RelP s r p) :
    RelP (s.setBody a l) (r.mark a t) (p.age a l) := by
  cases p with
  | nothing => cases hr; rfl
  | whole c => cases hr; rfl
  | gone => trivial
  | part b q =>
    obtain ⟨rfl, hq, l0, h1, h2⟩ := hr
    simp only [Place.age, Ref.mark]
    by_cases hb : b = a
    · rw [if_pos hb, if_pos hb]
      cases l with
      | none => trivial
      | some l =>
        obtain ⟨t', rfl, h4, rfl⟩ := h l rfl
        simp only
        by_cases hu : under q (entN [] t') ≠ []
        · rw [if_pos hu, if_pos ((found_iff t' h4.wf q hq).2 hu)]
          refine ⟨rfl, hq, _, ?_, hu⟩
          simp [SWorld.setBody, hb]
        · rw [if_neg hu]; trivial
    · rw [if_neg hb, if_neg hb]
      exact ⟨rfl, hq, l0, by simp [SWorld.setBody, hb, h1], h2⟩

theorem age_key (a : Nat) (l : Option (List (Key × V))) (p : Place) : p.age a l = p ∨ p.age a l = .gone := by
  cases p with
  | part b q =>
    simp only [Place.age]
    by_cases hb : b = a
    · rw [if_pos hb]
      cases l with
      | none => exact Or.inr rfl
      | some l =>
        simp only
        by_cases hu : under q l ≠ []
        · rw [if_pos hu]; exact Or.inl rfl
        · rw [if_neg hu]; exact Or.inr rfl
    · rw [if_neg hb]; exact Or.inl rfl
  | _ => exact Or.inl rfl

theorem drop_key (c : Nat) (p : Place) : p.drop c = p ∨ p.drop c = .gone := by
  cases p with
  | whole d =>
    simp only [Place.drop]
    by_cases hd : d = c
    · rw [if_pos hd]; exact Or.inr rfl
    · rw [if_neg hd]; exact Or.inl rfl
  | _ => exact Or.inl rfl

theorem Named.weaken {y : SVar} (h : Named y) {p : Place} (hp : p = y.place ∨ p = .gone) : Named { y with place := p } := by
  intro pre h1 h2 h3
  rcases hp with rfl | rfl
  · exact h pre h1 h2 h3
  · exact absurd rfl h3

theorem core_set {w : World V} {s : SWorld V} (hc : Core w s) (a : Nat) (t : Option (Node V)) (l : Option (List (Key × V)))
    (h : ∀ l', l = some l' → RelT t l') : Core (w.setTree a t) (s.setBody a l) := by
  refine ⟨hc.holds, hc.next, ?_, ?_⟩
  · intro b l' hb
    simp only [SWorld.setBody, World.setTree] at hb ⊢
    by_cases hba : b = a
    · rw [if_pos hba] at hb ⊢; exact h l' hb
    · rw [if_neg hba] at hb ⊢; exact hc.body b l' hb
  · intro i
    have := hc.vars i
    cases h1 : w.vars i with
    | none =>
      cases h2 : s.vars i with
      | none => simp [World.setTree, SWorld.setBody, h1, h2, RelV]
      | some y => rw [h1, h2] at this; exact this.elim
    | some x =>
      cases h2 : s.vars i with
      | none => rw [h1, h2] at this; exact this.elim
      | some y =>
        rw [h1, h2] at this
        have h3 : (w.setTree a t).vars i = some { x with ref := x.ref.mark a t } := by simp [World.setTree, h1]
        have h4 : (s.setBody a l).vars i = some { y with place := y.place.age a l } := by simp [SWorld.setBody, h2]
        rw [h3, h4]
        exact ⟨this.1, this.2.1.weaken (age_key a l _), rel_mark s a t l h _ _ this.2.2⟩

theorem rel_congr {s s' : SWorld V} (h : s'.body = s.body) {r : Ref} {p : Place} (hr : RelP s r p) : RelP s' r p := by
  cases p with
  | part a q => obtain ⟨h1, h2, l, h3, h4⟩ := hr; exact ⟨h1, h2, l, by rw [h]; exact h3, h4⟩
  | _ => exact hr

theorem relV_congr {s s' : SWorld V} (h : s'.body = s.body) {x : Option Var} {y : Option SVar} (hr : RelV s x y) : RelV s' x y := by
  cases x <;> cases y <;> first | exact hr | exact ⟨hr.1, hr.2.1, rel_congr h hr.2.2⟩

theorem core_holds {w : World V} {s : SWorld V} (hc : Core w s) (c : Nat) (a : Option Nat) :
    Core (w.setHolds c a) (s.setHolds c a) := by
  refine ⟨?_, hc.next, hc.body, fun i => relV_congr (s := s) rfl (hc.vars i)⟩
  simp only [World.setHolds, SWorld.setHolds, hc.holds]

theorem core_fresh {w : World V} {s : SWorld V} (hc : Core w s) (c : Nat) (t : Node V) (l : Option (List (Key × V)))
    (h : ∀ l', l = some l' → RelT (some t) l') : Core (w.fresh c t) (s.fresh c l) := by
  have h1 := core_holds (core_set hc w.next (some t) l h) c (some w.next)
  rw [hc.next] at h1
  refine ⟨?_, ?_, ?_, ?_⟩
  · have := h1.holds; simp only [World.fresh, SWorld.fresh, hc.next]; exact this
  · simp only [World.fresh, SWorld.fresh, hc.next]
  · have := h1.body; simp only [World.fresh, SWorld.fresh, hc.next]; exact this
  · intro i
    have := h1.vars i
    simp only [World.fresh, SWorld.fresh, hc.next]
    exact relV_congr (s := (s.setBody s.next l).setHolds c (some s.next)) rfl this

theorem core_put {w : World V} {s : SWorld V} (hc : Core w s) (i : Nat) (x : Var) (y : SVar) (h1 : x.search = y.search)
    (hn : Named y) (h2 : RelP s x.ref y.place) : Core (w.put i x) (s.put i y) := by
  refine ⟨hc.holds, hc.next, hc.body, fun j => ?_⟩
  apply relV_congr (s := s) rfl
  simp only [World.put, SWorld.put]
  by_cases hj : j = i
  · rw [if_pos hj, if_pos hj]; exact ⟨h1, hn, h2⟩
  · rw [if_neg hj, if_neg hj]; exact hc.vars j

theorem Core.get {w : World V} {s : SWorld V} (hc : Core w s) {i : Nat} {y : SVar} (h : s.vars i = some y) :
    ∃ x, w.vars i = some x ∧ x.search = y.search ∧ Named y ∧ RelP s x.ref y.place := by
  have := hc.vars i
  rw [h] at this
  cases h1 : w.vars i with
  | none => rw [h1] at this; exact this.elim
  | some x => rw [h1] at this; exact ⟨x, rfl, this⟩

theorem Core.map {w : World V} {s : SWorld V} (hc : Core w s) {c : Nat} {l : List (Key × V)} (h : s.ents c = some l) :
    ∃ a t, s.holds c = some a ∧ s.body a = some l ∧ w.tree a = some t ∧ w.map? c = some (a, t) ∧ Reachable t ∧ entN [] t = l := by
  unfold SWorld.ents at h
  cases ha : s.holds c with
  | none => rw [ha] at h; cases h
  | some a =>
    rw [ha] at h
    obtain ⟨t, h1, h2, h3⟩ := hc.body a l h
    refine ⟨a, t, rfl, h, h1, ?_, h2, h3⟩
    simp [World.map?, hc.holds, ha, h1]

/-- A handle whose entries are known points to a node with these entries. -/
theorem Core.node {w : World V} {s : SWorld V} (hc : Core w s) {r : Ref} {p : Place} (hr : RelP s r p) {l : List (Key × V)}
    (h : s.seen p = some l) (hp : p ≠ .nothing) :
    ∃ n, w.node r = .ok n ∧ n.kids.WF ∧ entN p.key n = l ∧ r ≠ .null ∧ ((∀ c, p ≠ .whole c) → l ≠ []) := by
  cases p with
  | nothing => exact absurd rfl hp
  | gone => cases h
  | whole c =>
    cases hr
    obtain ⟨a, t, h1, h2, h3, h4, h5, h6⟩ := hc.map h
    exact ⟨t, by simp [World.node, h4], h5.wf, h6, by simp, fun hd => absurd rfl (hd c)⟩
  | part a q =>
    obtain ⟨rfl, hq, l0, h1, h2⟩ := hr
    obtain ⟨t, h3, h4, h5⟩ := hc.body a l0 h1
    subst h5
    obtain ⟨m, hm⟩ := Option.isSome_iff_exists.1 ((found_iff t h4.wf q hq).2 h2)
    simp only [SWorld.seen, h1, Option.map_some, Option.some.injEq] at h
    subst h
    exact ⟨m, by simp [World.node, h3, hm], (findNode_wf q t m h4.wf hm).1, (under_entN t h4.wf q m hm).symm, by simp,
      fun _ => h2⟩

theorem under_under (q k : Key) (l : List (Key × V)) : under (q ++ k) (under q l) = under (q ++ k) l := by
  unfold under
  rw [List.filter_filter]
  apply List.filter_congr
  intro e _
  by_cases h : q ++ k <+: e.1
  · have : q <+: e.1 := (List.prefix_append q k).trans h
    simp [h, this]
  · simp [h]

theorem below_ok {w : World V} {s : SWorld V} (hc : Core w s) {r : Ref} {p : Place} (hr : RelP s r p) {l : List (Key × V)}
    (h : s.seen p = some l) (hp : p ≠ .nothing) (k : Key) : ∃ r', w.below r k = .ok r' ∧ RelP s r' (s.below p k) := by
  obtain ⟨n, hn, hw, he, -, -⟩ := hc.node hr h hp
  unfold World.below SWorld.below
  rw [hn, h]
  by_cases hk : k = []
  · subst hk; exact ⟨r, rfl, hr⟩
  rw [if_neg hk]
  obtain ⟨u, k', rfl⟩ := List.exists_cons_of_ne_nil hk
  simp only
  cases p with
  | nothing => exact absurd rfl hp
  | gone => cases h
  | whole c =>
    cases hr
    obtain ⟨a, t, h1, h2, h3, h4, h5, h6⟩ := hc.map h
    have : n = t := by simp [World.node, h4] at hn; exact hn.symm
    subst this
    subst h6
    have hf : (findNode (u :: k') n).isSome ↔ under ((Place.whole c).key ++ u :: k') (entN [] n) ≠ [] :=
      found_iff n hw (u :: k') (by simp)
    cases hm : findNode (u :: k') n with
    | none =>
      rw [hm] at hf
      have : under ((Place.whole c).key ++ u :: k') (entN [] n) = [] := by
        by_contra hc'
        exact absurd (hf.2 hc') (by simp)
      rw [if_pos this]
      exact ⟨_, rfl, rfl⟩
    | some m =>
      rw [hm] at hf
      have hu := hf.1 rfl
      rw [if_neg hu]
      simp only [h4, h1]
      exact ⟨_, rfl, rfl, by simp, _, h2, hu⟩
  | part a q =>
    obtain ⟨rfl, hq, l0, h1, h2⟩ := hr
    obtain ⟨t, h3, h4, h5⟩ := hc.body a l0 h1
    subst h5
    simp only [SWorld.seen, h1, Option.map_some, Option.some.injEq] at h
    subst h
    have hf : (findNode (q ++ u :: k') t).isSome ↔ under ((Place.part a q).key ++ u :: k') (under q (entN [] t)) ≠ [] := by
      rw [show (Place.part a q).key = q from rfl, under_under]
      exact found_iff t h4.wf (q ++ u :: k') (by simp)
    have hnt : findNode q t = some n := by
      simp only [World.node, h3] at hn
      cases hm : findNode q t with
      | none => rw [hm] at hn; cases hn
      | some m => rw [hm] at hn; cases hn; rfl
    rw [findNode_append, hnt, Option.bind_some] at hf
    cases hm : findNode (u :: k') n with
    | none =>
      rw [hm] at hf
      have : under ((Place.part a q).key ++ u :: k') (under q (entN [] t)) = [] := by
        by_contra hc'
        exact absurd (hf.2 hc') (by simp)
      rw [if_pos this]
      exact ⟨_, rfl, rfl⟩
    | some m =>
      rw [hm] at hf
      have hu := hf.1 rfl
      rw [if_neg hu]
      exact ⟨_, rfl, rfl, by simp, _, h1, by rw [← under_under]; exact hu⟩

/-! ### the objects of the specification -/

theorem sok_step {s : SWorld V} (h : SOk s) (c : Cmd V) (hl : Legal s c) : SOk (sStep s c) := by
  have hfresh : ∀ c l, SOk (s.fresh c l) := by
    intro c l
    refine ⟨?_, ?_⟩
    · intro x y a hx hy
      simp only [SWorld.fresh, SWorld.setHolds, SWorld.setBody] at hx hy
      by_cases h1 : x = c <;> by_cases h2 : y = c
      · rw [h1, h2]
      · rw [if_pos h1] at hx; rw [if_neg h2] at hy
        have := h.lt y a hy
        injection hx; omega
      · rw [if_neg h1] at hx; rw [if_pos h2] at hy
        have := h.lt x a hx
        injection hy; omega
      · rw [if_neg h1] at hx; rw [if_neg h2] at hy
        exact h.inj x y a hx hy
    · intro x a hx
      simp only [SWorld.fresh, SWorld.setHolds, SWorld.setBody] at hx ⊢
      by_cases h1 : x = c
      · rw [if_pos h1] at hx; injection hx; omega
      · rw [if_neg h1] at hx; have := h.lt x a hx; omega
  have hmove : ∀ c d m, s.holds d ≠ none → SOk ((s.fresh d m).setHolds c (s.holds d)) := by
    intro c d m hd
    obtain ⟨b, hb⟩ := Option.ne_none_iff_exists'.1 hd
    refine ⟨?_, ?_⟩
    · intro x y a hx hy
      simp only [SWorld.fresh, SWorld.setHolds, SWorld.setBody, hb] at hx hy
      have hbl := h.lt d b hb
      have key : ∀ z, z ≠ c → (if z = c then some b else if z = d then some s.next else s.holds z) = some b → False := by
        intro z hz hh
        rw [if_neg hz] at hh
        by_cases hzd : z = d
        · rw [if_pos hzd] at hh; injection hh; omega
        · rw [if_neg hzd] at hh; exact hzd (h.inj z d b hh hb)
      by_cases h1 : x = c <;> by_cases h2 : y = c
      · rw [h1, h2]
      · rw [if_pos h1] at hx; injection hx with hx; subst hx; exact (key y h2 hy).elim
      · rw [if_pos h2] at hy; injection hy with hy; subst hy; exact (key x h1 hx).elim
      · rw [if_neg h1] at hx; rw [if_neg h2] at hy
        exact (hfresh d m).inj x y a hx hy
    · intro x a hx
      by_cases h1 : x = c
      · simp only [SWorld.setHolds, if_pos h1] at hx
        have := h.lt d a hx
        show a < s.next + 1
        omega
      · simp only [SWorld.setHolds, if_neg h1] at hx
        exact (hfresh d m).lt x a hx
  have hsub : ∀ s' : SWorld V, (∀ c a, s'.holds c = some a → s.holds c = some a) → s'.next = s.next → SOk s' :=
    fun s' h1 h2 => ⟨fun x y a hx hy => h.inj x y a (h1 x a hx) (h1 y a hy), fun x a hx => by rw [h2]; exact h.lt x a (h1 x a hx)⟩
  have hset : ∀ {s' : SWorld V} a l, SOk s' → SOk (s'.setBody a l) := fun a l h' => ⟨h'.inj, h'.lt⟩
  cases c with
  | make c => exact hfresh c _
  | copyNew c d => exact hfresh c _
  | moveNew c d =>
    refine hmove c d _ ?_
    intro hc; exact hl.2 (by simp [SWorld.ents, hc])
  | destroy c =>
    obtain ⟨a, ha⟩ := Option.ne_none_iff_exists'.1 (show s.holds c ≠ none from hl)
    simp only [sStep, ha]
    refine hsub _ ?_ rfl
    intro x b hx
    simp only [SWorld.setHolds, SWorld.setBody] at hx
    by_cases h1 : x = c
    · rw [if_pos h1] at hx; cases hx
    · rw [if_neg h1] at hx; exact hx
  | assign c d =>
    simp only [sStep]
    cases s.holds c with
    | none => exact h
    | some old => exact hset _ _ (hfresh c _)
  | assignMove c d =>
    simp only [sStep]
    have hd : s.holds d ≠ none := by intro hc; exact hl.2 (by simp [SWorld.ents, hc])
    cases (s.fresh d (remains (s.ents d))).holds c with
    | none => exact h
    | some old => exact hset _ _ (hmove c d _ hd)
  | swap c d =>
    refine ⟨?_, ?_⟩
    · intro x y a hx hy
      simp only [sStep, SWorld.setHolds] at hx hy
      split at hx <;> split at hy <;> (try split at hx) <;> (try split at hy) <;>
        first
          | (subst_vars; rfl)
          | (have := h.inj _ _ a hx hy; subst_vars; first | rfl | contradiction)
    · intro x a hx
      simp only [sStep, SWorld.setHolds] at hx ⊢
      split at hx
      · exact h.lt _ a hx
      · split at hx
        · exact h.lt _ a hx
        · exact h.lt _ a hx
  | insert c k v =>
    simp only [sStep, SWorld.change]
    cases s.holds c with
    | none => exact h
    | some a => exact hset _ _ h
  | erase c k =>
    simp only [sStep, SWorld.change]
    cases s.holds c with
    | none => exact h
    | some a => exact hset _ _ h
  | clear c =>
    simp only [sStep]
    cases s.holds c with
    | none => exact h
    | some a => exact hset _ _ h
  | child i j u => simp only [sStep]; cases s.vars j <;> exact ⟨h.inj, h.lt⟩
  | copyVar i j => simp only [sStep]; cases s.vars j <;> exact ⟨h.inj, h.lt⟩
  | search i c pre => exact ⟨h.inj, h.lt⟩
  | rootNode i c => exact ⟨h.inj, h.lt⟩
  | size c => exact h
  | equal c d => exact h
  | loop i => exact h
  | valid i => exact h
  | hasChild i => exact h
  | hasValue i => exact h
  | value i => exact h

/-! ### one call -/

theorem husk_ok (moved : V → V) (t : Node V) (hr : Reachable t) (l' : List (Key × V)) (h : remains (some (entN [] t)) = some l') :
    RelT (some (husk moved t)) l' := by
  simp only [remains] at h
  rw [lookup_entN t hr.wf] at h
  split at h
  · next hn =>
    injection h with h
    subst h
    have hv : t.val = none := by rw [Option.isNone_iff_eq_none] at hn; exact hn
    exact ⟨_, rfl, ⟨[], by simp only [husk, hv]; rfl⟩, by simp only [husk, hv]; rfl⟩
  · cases h

theorem trees_some {w : World V} (h : Trees w) (a : Nat) (t : Node V) : Trees (w.setTree a (some t)) := by
  intro c b hb
  simp only [World.setTree]
  by_cases h1 : b = a
  · rw [if_pos h1]; rfl
  · rw [if_neg h1]; exact h c b hb

theorem trees_none {w : World V} (h : Trees w) (a : Nat) (ha : ∀ c, w.holds c ≠ some a) : Trees (w.setTree a none) := by
  intro c b hb
  simp only [World.setTree]
  by_cases h1 : b = a
  · subst h1; exact absurd hb (ha c)
  · rw [if_neg h1]; exact h c b hb

theorem trees_holds {w : World V} (h : Trees w) (c a : Nat) (ha : (w.tree a).isSome) : Trees (w.setHolds c (some a)) := by
  intro d b hb
  simp only [World.setHolds] at hb
  by_cases h1 : d = c
  · rw [if_pos h1] at hb; injection hb with hb; subst hb; exact ha
  · rw [if_neg h1] at hb; exact h d b hb

theorem trees_fresh {w : World V} (h : Trees w) (c : Nat) (t : Node V) : Trees (w.fresh c t) := by
  have := trees_holds (trees_some h w.next t) c w.next (by simp [World.setTree])
  exact fun d b hb => this d b hb

theorem map_some {w : World V} {c a : Nat} (h : Trees w) (hc : w.holds c = some a) : ∃ t, w.tree a = some t ∧ w.map? c = some (a, t) := by
  obtain ⟨t, ht⟩ := Option.isSome_iff_exists.1 (h c a hc)
  exact ⟨t, ht, by simp [World.map?, hc, ht]⟩

theorem lookup_under (q : Key) (l : List (Key × V)) : lookup (under q l) q = lookup l q := by
  unfold lookup under
  rw [List.find?_filter]
  congr 1
  apply congrArg (fun f => List.find? f l)
  funext e
  by_cases h : e.1 = q
  · simp [h]
  · simp [h]

theorem lookup_self (n : Node V) (q : Key) (hw : n.kids.WF) : lookup (entN q n) q = n.val := by
  cases h : lookup (entN q n) q with
  | none =>
    cases hv : n.val with
    | none => rfl
    | some v =>
      exfalso
      have hm : (q, v) ∈ entN q n := by
        rw [mem_entN n q hw]
        exact ⟨[], by simp, hv⟩
      have := lookup_mem (List.mem_map.2 ⟨_, hm, rfl⟩)
      rw [h] at this; cases this
  | some v =>
    unfold lookup at h
    rw [Option.map_eq_some_iff] at h
    obtain ⟨e, h1, rfl⟩ := h
    have h2 := List.mem_of_find?_eq_some h1
    have h3 := List.find?_some h1
    simp only [decide_eq_true_eq] at h3
    rw [mem_entN n q hw] at h2
    obtain ⟨r, h4, h5⟩ := h2
    rw [h3] at h4
    have : r = [] := by simpa using h4
    subst this
    exact h5.symm

theorem any_child (n : Node V) (q : Key) (hw : n.kids.WF) :
    ((entN q n).any fun e => decide (e.1 ≠ q)) = !n.kids.isEmpty := by
  rw [Bool.eq_iff_iff, List.any_eq_true, Bool.not_eq_true', ← Bool.not_eq_true, isEmpty_iff]
  constructor
  · rintro ⟨e, h1, h2⟩ hn
    rw [decide_eq_true_eq] at h2
    unfold entN at h1
    rw [hn, show entK q (Kids.nil : Kids V) = [] from rfl, List.append_nil, mem_optEntry] at h1
    exact h2 h1.1
  · intro hn
    obtain ⟨v, ks⟩ := n
    cases ks with
    | nil => exact absurd rfl hn
    | cons c v' k r =>
      obtain ⟨r', hr⟩ := alive_hasPrefix v' k hw.1 hw.2.2.2
      obtain ⟨x, hx⟩ := Option.ne_none_iff_exists'.1 hr
      refine ⟨(q ++ c :: r', x), ?_, by simp⟩
      rw [mem_entN _ q hw]
      refine ⟨c :: r', rfl, ?_⟩
      simpa [denote, Kids.find?] using hx

/-- A question about a node handle. -/
theorem ask_ok {w : World V} {s : SWorld V} (hc : Core w s) (i : Nat) (y : SVar) (l : List (Key × V)) (hv : s.vars i = some y)
    (hs : y.search = none) (hl : s.seen y.place = some l) (dflt : Outcome (Ans V)) (f : Node V → Outcome (Ans V)) :
    (y.place = .nothing ∧ l = [] ∧ w.ask i dflt f = dflt.map (w, ·)) ∨
      ∃ n, n.kids.WF ∧ entN y.place.key n = l ∧ w.ask i dflt f = (f n).map (w, ·) := by
  obtain ⟨⟨r, sx⟩, h1, h2, -, h3⟩ := hc.get hv
  simp only at h2 h3
  subst h2
  unfold World.ask
  rw [h1, hs]
  by_cases hp : y.place = .nothing
  · rw [hp] at h3 hl
    cases h3
    simp only [SWorld.seen, Option.some.injEq] at hl
    exact Or.inl ⟨hp, hl.symm, rfl⟩
  · obtain ⟨n, e1, e2, e3, e4, -⟩ := hc.node h3 hl hp
    refine Or.inr ⟨n, e2, e3, ?_⟩
    cases r with
    | null => exact absurd rfl e4
    | _ => simp only [e1]

theorem below_named (s : SWorld V) (c : Nat) (pre : Key) : Named ⟨s.below (.whole c) pre, some pre⟩ := by
  rintro p ⟨⟩ h2 h3
  simp only at h2 h3 ⊢
  unfold SWorld.below at h2 h3 ⊢
  by_cases hk : pre = []
  · rw [if_pos hk]; exact hk.symm
  · rw [if_neg hk] at h2 h3 ⊢
    cases hs : s.seen (.whole c) with
    | none => rw [hs] at h3; exact absurd rfl h3
    | some l =>
      rw [hs] at h2 h3
      simp only at h2 h3 ⊢
      split at h2
      · exact absurd rfl h2
      · next hu =>
        rw [if_neg hu] at h3 ⊢
        cases hh : s.holds c with
        | none => rw [hh] at h3; exact absurd rfl h3
        | some a => rfl

variable [DecidableEq V]

theorem step_ok (moved : V → V) (w : World V) (s : SWorld V) (hc : Core w s) (ht : Trees w) (hs : SOk s) (c : Cmd V)
    (hl : Legal s c) : ∃ w' a, step moved w c = .ok (w', a) ∧ sAns s c a ∧ Core w' (sStep s c) ∧ Trees w' := by
  cases c with
  | make c =>
    have h : w.holds c = none := by rw [hc.holds]; exact hl
    refine ⟨_, _, by simp only [step, h] <;> rfl, rfl, core_fresh hc c _ _ ?_, trees_fresh ht _ _⟩
    rintro _ ⟨⟩
    exact ⟨_, rfl, ⟨[], rfl⟩, rfl⟩
  | copyNew c d =>
    obtain ⟨h1, h2⟩ := hl
    obtain ⟨l, h2⟩ := Option.ne_none_iff_exists'.1 h2
    obtain ⟨a, t, -, -, -, e4, e5, e6⟩ := hc.map h2
    have h : w.holds c = none := by rw [hc.holds]; exact h1
    refine ⟨_, _, by simp only [step, h, e4] <;> rfl, rfl, core_fresh hc c _ _ ?_, trees_fresh ht _ _⟩
    rw [h2]
    rintro _ ⟨⟩
    exact ⟨_, rfl, e5, e6⟩
  | moveNew c d =>
    obtain ⟨h1, h2⟩ := hl
    obtain ⟨l, h2⟩ := Option.ne_none_iff_exists'.1 h2
    obtain ⟨a, t, e1, -, e3, e4, e5, e6⟩ := hc.map h2
    have h : w.holds c = none := by rw [hc.holds]; exact h1
    refine ⟨_, _, by simp only [step, h, e4] <;> rfl, rfl, ?_, ?_⟩
    · simp only [sStep, e1]
      refine core_holds (core_fresh hc d _ _ ?_) c (some a)
      rw [h2, ← e6]
      exact husk_ok moved t e5
    · refine trees_holds (trees_fresh ht d _) c a ?_
      have := hs.lt d a e1
      simp only [World.fresh, World.setHolds, World.setTree]
      rw [if_neg (by rw [hc.next]; omega), e3]; rfl
  | destroy c =>
    obtain ⟨a, ha⟩ := Option.ne_none_iff_exists'.1 (show s.holds c ≠ none from hl)
    have h : w.holds c = some a := by rw [hc.holds]; exact ha
    refine ⟨_, _, by simp only [step, h] <;> rfl, rfl, ?_, ?_⟩
    · simp only [sStep, ha]
      have h1 := core_holds (core_set hc a none none (by simp)) c none
      refine ⟨h1.holds, h1.next, h1.body, fun i => ?_⟩
      have h2 := (core_set hc a none none (by simp)).vars i
      cases e1 : (w.setTree a none).vars i with
      | none =>
        cases e2 : (s.setBody a none).vars i with
        | none => simp only [e1, e2, Option.map_none]; trivial
        | some y => rw [e1, e2] at h2; exact h2.elim
      | some x =>
        cases e2 : (s.setBody a none).vars i with
        | none => rw [e1, e2] at h2; exact h2.elim
        | some y =>
          rw [e1, e2] at h2
          simp only [e1, e2, Option.map_some]
          refine ⟨h2.1, h2.2.1.weaken (drop_key c _), ?_⟩
          have h3 := h2.2.2
          show RelP _ (x.ref.drop c) (y.place.drop c)
          cases hp : y.place with
          | nothing => rw [hp] at h3; cases h3' : x.ref <;> rw [h3'] at h3 <;> first | rfl | cases h3
          | gone => trivial
          | whole d =>
            rw [hp] at h3
            have h3 : x.ref = .root d := h3
            rw [h3]
            by_cases hd : d = c
            · rw [show (Place.whole d).drop c = .gone by simp [Place.drop, hd]]; trivial
            · rw [show (Place.whole d).drop c = .whole d by simp [Place.drop, hd], show (Ref.root d).drop c = .root d by simp [Ref.drop, hd]]
              rfl
          | part b q =>
            rw [hp] at h3
            obtain ⟨h4, h5, h6⟩ := h3
            rw [h4]
            exact ⟨rfl, h5, h6⟩
    · intro d b hb
      simp only [World.setHolds, World.setTree] at hb ⊢
      by_cases h1 : d = c
      · rw [if_pos h1] at hb; cases hb
      · rw [if_neg h1] at hb
        by_cases h2 : b = a
        · subst h2
          rw [hc.holds] at hb
          exact absurd (hs.inj d c b hb ha) h1
        · rw [if_neg h2]; exact ht d b hb
  | assign c d =>
    obtain ⟨h1, h2⟩ := hl
    obtain ⟨l, h2⟩ := Option.ne_none_iff_exists'.1 h2
    obtain ⟨old, h1⟩ := Option.ne_none_iff_exists'.1 h1
    obtain ⟨a, t, -, -, -, e4, e5, e6⟩ := hc.map h2
    have h : w.holds c = some old := by rw [hc.holds]; exact h1
    refine ⟨_, _, by simp only [step, h, e4] <;> rfl, rfl, ?_, ?_⟩
    · simp only [sStep, h1, h2]
      refine core_set (core_fresh hc c _ _ ?_) old none none (by simp)
      rintro _ ⟨⟩
      exact ⟨_, rfl, e5, e6⟩
    · refine trees_none (trees_fresh ht c t) old ?_
      intro x hx
      have hlt := hs.lt c old h1
      simp only [World.fresh, World.setHolds, World.setTree] at hx
      by_cases hxc : x = c
      · rw [if_pos hxc] at hx; injection hx with hx; rw [hc.next] at hx; omega
      · rw [if_neg hxc, hc.holds] at hx
        exact hxc (hs.inj x c old hx h1)
  | assignMove c d =>
    obtain ⟨h1, h2⟩ := hl
    obtain ⟨l, h2⟩ := Option.ne_none_iff_exists'.1 h2
    obtain ⟨a, t, e1, -, e3, e4, e5, e6⟩ := hc.map h2
    obtain ⟨o, h1⟩ := Option.ne_none_iff_exists'.1 h1
    have h : w.holds c = some o := by rw [hc.holds]; exact h1
    have hf := core_fresh hc d (husk moved t) (remains (s.ents d)) (by rw [h2, ← e6]; exact husk_ok moved t e5)
    obtain ⟨old, ho⟩ : ∃ old, (s.fresh d (remains (s.ents d))).holds c = some old := by
      simp only [SWorld.fresh, SWorld.setHolds, SWorld.setBody]
      by_cases hcd : c = d
      · rw [if_pos hcd]; exact ⟨_, rfl⟩
      · rw [if_neg hcd]; exact ⟨_, h1⟩
    have ho' : (w.fresh d (husk moved t)).holds c = some old := by rw [hf.holds]; exact ho
    refine ⟨_, _, by simp only [step, h, e4] <;> rfl, rfl, ?_, ?_⟩
    · simp only [sStep, ho, e1]
      unfold World.replace
      rw [ho']
      exact core_set (core_holds hf c (some a)) old none none (by simp)
    · unfold World.replace
      rw [ho']
      have hlt := hs.lt d a e1
      refine trees_none (trees_holds (trees_fresh ht d _) c a ?_) old ?_
      · simp only [World.fresh, World.setHolds, World.setTree]
        rw [if_neg (by rw [hc.next]; omega), e3]; rfl
      · intro x hx
        have hlt2 := hs.lt c o h1
        simp only [World.fresh, World.setHolds, World.setTree] at hx
        simp only [SWorld.fresh, SWorld.setHolds, SWorld.setBody] at ho
        rw [hc.next, hc.holds] at hx
        by_cases hcd : c = d
        · rw [if_pos hcd] at ho
          injection ho with ho
          subst hcd
          by_cases hxc : x = c
          · rw [if_pos hxc] at hx; injection hx; omega
          · rw [if_neg hxc, if_neg hxc] at hx
            have := hs.lt x old hx; omega
        · rw [if_neg hcd] at ho
          by_cases hxc : x = c
          · rw [if_pos hxc] at hx
            injection hx with hx
            subst hx
            exact hcd (hs.inj c d a ho e1)
          · rw [if_neg hxc] at hx
            have hlt3 := hs.lt c old ho
            by_cases hxd : x = d
            · rw [if_pos hxd] at hx; injection hx; omega
            · rw [if_neg hxd] at hx
              exact hxc (hs.inj x c old hx ho)
  | swap c d =>
    obtain ⟨h1, h2⟩ := hl
    obtain ⟨a, h1⟩ := Option.ne_none_iff_exists'.1 h1
    obtain ⟨b, h2⟩ := Option.ne_none_iff_exists'.1 h2
    have e1 : w.holds c = some a := by rw [hc.holds]; exact h1
    have e2 : w.holds d = some b := by rw [hc.holds]; exact h2
    refine ⟨_, _, by simp only [step, e1, e2] <;> rfl, rfl, ?_, ?_⟩
    · simp only [sStep, h1, h2]
      exact core_holds (core_holds hc c (some b)) d (some a)
    · exact trees_holds (trees_holds ht c b (ht d b e2)) d a (ht c a e1)
  | insert c k v =>
    obtain ⟨l, h2⟩ := Option.ne_none_iff_exists'.1 (show s.ents c ≠ none from hl)
    obtain ⟨a, t, e1, e2, e3, e4, e5, e6⟩ := hc.map h2
    refine ⟨_, _, by simp only [step, World.change, e4] <;> rfl, rfl, ?_, trees_some ht _ _⟩
    simp only [sStep, SWorld.change, e1, e2]
    refine core_set hc a _ _ ?_
    rintro _ ⟨⟩
    exact ⟨_, rfl, reach_step e5 (.insert k v), by rw [← e6]; exact entN_insert t e5.wf k v⟩
  | erase c k =>
    obtain ⟨l, h2, hk⟩ := hl
    obtain ⟨a, t, e1, e2, e3, e4, e5, e6⟩ := hc.map h2
    subst e6
    have hsafe : Safe (denote t) k := by
      unfold SafeKey at hk
      rw [lookup_entN t e5.wf] at hk
      rcases hk with hk | hk
      · left; intro hn; rw [hn] at hk; cases hk
      · right; intro q c d r hq; rw [← lookup_entN t e5.wf]; exact hk q c d r hq
    obtain ⟨g1, g2⟩ := C18_erase_partial t e5 k hsafe
    refine ⟨_, _, by simp only [step, World.change, e4] <;> rfl, ⟨_, h2, ?_⟩, ?_, trees_some ht _ _⟩
    · rw [g1, lookup_entN t e5.wf]
    · simp only [sStep, SWorld.change, e1, e2]
      refine core_set hc a _ _ ?_
      rintro _ ⟨⟩
      exact ⟨_, rfl, reach_step e5 (.erase k), entN_of_erase t _ e5.wf (erase_wf k t e5.wf) k g2⟩
  | clear c =>
    obtain ⟨a, ha⟩ := Option.ne_none_iff_exists'.1 (show s.holds c ≠ none from hl)
    have h : w.holds c = some a := by rw [hc.holds]; exact ha
    obtain ⟨t, h1, h2⟩ := map_some ht h
    refine ⟨_, _, by simp only [step, World.change, h2] <;> rfl, rfl, ?_, trees_some ht _ _⟩
    simp only [sStep, ha]
    refine core_set hc a _ _ ?_
    rintro _ ⟨⟩
    exact ⟨_, rfl, ⟨[], rfl⟩, rfl⟩
  | size c =>
    obtain ⟨l, h2⟩ := Option.ne_none_iff_exists'.1 (show s.ents c ≠ none from hl)
    obtain ⟨a, t, e1, e2, e3, e4, e5, e6⟩ := hc.map h2
    refine ⟨_, _, by simp only [step, e4] <;> rfl, ⟨l, h2, ?_⟩, hc, ht⟩
    rw [← e6, length_entN]
  | equal c d =>
    obtain ⟨l, h1⟩ := Option.ne_none_iff_exists'.1 hl.1
    obtain ⟨l', h2⟩ := Option.ne_none_iff_exists'.1 hl.2
    obtain ⟨a, t, -, -, -, e4, e5, e6⟩ := hc.map h1
    obtain ⟨b, u, -, -, -, f4, f5, f6⟩ := hc.map h2
    refine ⟨_, _, by simp only [step, e4, f4] <;> rfl, ⟨l, l', _, h1, h2, rfl, ?_⟩, hc, ht⟩
    rw [C17_eq t u e5 f5, eq_entries t u e5.wf f5.wf, e6, f6]
  | search i c pre =>
    obtain ⟨l, h2⟩ := Option.ne_none_iff_exists'.1 (show s.ents c ≠ none from hl)
    obtain ⟨r, e1, e2⟩ := below_ok hc (r := .root c) (p := .whole c) rfl h2 (by simp) pre
    refine ⟨_, _, by simp only [step, e1, Outcome.put] <;> rfl, rfl, core_put hc i _ _ rfl ?_ e2, ht⟩
    exact below_named s c pre
  | rootNode i c =>
    obtain ⟨a, ha⟩ := Option.ne_none_iff_exists'.1 (show s.holds c ≠ none from hl)
    have h : w.holds c = some a := by rw [hc.holds]; exact ha
    exact ⟨_, _, by simp only [step, h] <;> rfl, rfl, core_put hc i ⟨.root c, none⟩ ⟨.whole c, none⟩ rfl (fun _ h => by cases h) rfl, ht⟩
  | child i j u =>
    obtain ⟨y, h1, h2, h3⟩ := hl
    obtain ⟨l, h3⟩ := Option.ne_none_iff_exists'.1 h3
    obtain ⟨⟨r, sx⟩, e1, e2, -, e3⟩ := hc.get h1
    simp only at e2 e3
    rw [h2] at e2
    subst e2
    simp only [step, sStep, e1, h1]
    by_cases hp : y.place = .nothing
    · rw [hp] at e3
      cases e3
      refine ⟨_, _, rfl, rfl, core_put hc i _ _ rfl (fun _ h => by cases h) ?_, ht⟩
      rw [hp]
      show RelP s Ref.null (s.below .nothing [u])
      simp [SWorld.below, SWorld.seen, under, RelP]
    · obtain ⟨n, g1, -, -, g4, -⟩ := hc.node e3 h3 hp
      obtain ⟨r', f1, f2⟩ := below_ok hc e3 h3 hp [u]
      cases r with
      | null => exact absurd rfl g4
      | _ =>
        simp only [f1, Outcome.put]
        exact ⟨_, _, rfl, rfl, core_put hc i _ _ rfl (fun _ h => by cases h) f2, ht⟩
  | copyVar i j =>
    obtain ⟨y, h1⟩ := Option.ne_none_iff_exists'.1 (show s.vars j ≠ none from hl)
    obtain ⟨x, e1, e2, en, e3⟩ := hc.get h1
    simp only [step, sStep, e1, h1]
    exact ⟨_, _, rfl, rfl, core_put hc i _ _ e2 en e3, ht⟩
  | loop i =>
    obtain ⟨y, h1, h2, h3, h4⟩ := hl
    obtain ⟨l, h3⟩ := Option.ne_none_iff_exists'.1 h3
    obtain ⟨⟨r, sx⟩, e1, e2, en, e3⟩ := hc.get h1
    obtain ⟨pre, h2⟩ := Option.ne_none_iff_exists'.1 h2
    simp only at e2 e3
    rw [h2] at e2
    subst e2
    by_cases hp : y.place = .nothing
    · rw [hp] at e3 h3
      cases e3
      refine ⟨_, _, by simp only [step, e1] <;> rfl, ⟨y, l, h1, by rw [hp]; exact h3, ?_⟩, hc, ht⟩
      simp only [SWorld.seen, Option.some.injEq] at h3
      rw [h3]
    · obtain ⟨n, g1, g2, g3, g4, g5⟩ := hc.node e3 h3 hp
      have hg : y.place ≠ .gone := by intro hg; rw [hg] at h3; cases h3
      have hk := en pre h2 hp hg
      rw [hk] at g3
      have hne : l ≠ [] := by
        by_cases hw : ∃ c, y.place = .whole c
        · obtain ⟨c, hw⟩ := hw
          have := h4 c hw
          rw [hw] at h3
          intro hl
          rw [hl] at h3
          exact this h3
        · exact g5 (fun c hc => hw ⟨c, hc⟩)
      have hlo := loop_ok n pre g2 (by rw [g3]; exact hne)
      rw [g3] at hlo
      refine ⟨w, .list l, ?_, ⟨y, l, h1, h3, rfl⟩, hc, ht⟩
      cases r with
      | null => exact absurd rfl g4
      | _ => simp only [step, e1, g1, hlo]; rfl
  | valid i =>
    obtain ⟨y, h1, h2, h3⟩ := hl
    obtain ⟨⟨r, sx⟩, e1, e2, -, e3⟩ := hc.get h1
    simp only at e2 e3
    rw [h2] at e2
    subst e2
    simp only [step, e1]
    refine ⟨_, _, rfl, ⟨y, h1, ?_⟩, hc, ht⟩
    congr 1
    cases hp : y.place with
    | nothing => rw [hp] at e3; cases e3; rfl
    | gone => exact absurd hp h3
    | whole c => rw [hp] at e3; cases e3; simp
    | part a q => rw [hp] at e3; rw [e3.1]; simp
  | hasChild i =>
    obtain ⟨y, h1, h2, h3⟩ := hl
    obtain ⟨l, h3⟩ := Option.ne_none_iff_exists'.1 h3
    rcases ask_ok hc i y l h1 h2 h3 (.ok (.bool false)) (fun n => .ok (.bool !n.kids.isEmpty)) with ⟨g1, rfl, g3⟩ | ⟨n, g1, g2, g3⟩
    · exact ⟨_, _, g3, ⟨y, _, h1, h3, rfl⟩, hc, ht⟩
    · refine ⟨_, _, g3, ⟨y, _, h1, h3, ?_⟩, hc, ht⟩
      rw [← g2, any_child n _ g1]
  | hasValue i =>
    obtain ⟨y, h1, h2, h3⟩ := hl
    obtain ⟨l, h3⟩ := Option.ne_none_iff_exists'.1 h3
    rcases ask_ok hc i y l h1 h2 h3 (.ok (.bool false)) (fun n => .ok (.bool n.val.isSome)) with ⟨g1, rfl, g3⟩ | ⟨n, g1, g2, g3⟩
    · exact ⟨_, _, g3, ⟨y, _, h1, h3, rfl⟩, hc, ht⟩
    · refine ⟨_, _, g3, ⟨y, _, h1, h3, ?_⟩, hc, ht⟩
      rw [← g2, lookup_self n _ g1]
  | value i =>
    obtain ⟨y, l, h1, h2, h3, h4⟩ := hl
    rcases ask_ok hc i y l h1 h2 h3 .ub (fun n => match n.val with
      | some v => .ok (.val v)
      | none => .err .general) with ⟨g1, rfl, g3⟩ | ⟨n, g1, g2, g3⟩
    · cases h4
    · obtain ⟨v, hv⟩ := Option.isSome_iff_exists.1 h4
      have hn : n.val = some v := by rw [← lookup_self n _ g1, g2]; exact hv
      rw [hn] at g3
      exact ⟨_, _, g3, ⟨y, _, v, h1, h3, hv, rfl⟩, hc, ht⟩

theorem run_ok (moved : V → V) (w : World V) (s : SWorld V) (hc : Core w s) (ht : Trees w) (hs : SOk s) (p : List (Cmd V))
    (hl : LegalRun s p) : ∃ w' as, run moved w p = .ok (w', as) ∧ Answers s p as := by
  induction p generalizing w s with
  | nil => exact ⟨w, [], rfl, rfl⟩
  | cons c cs ih =>
    obtain ⟨w1, a, e1, e2, e3, e4⟩ := step_ok moved w s hc ht hs c hl.1
    obtain ⟨w2, as, f1, f2⟩ := ih w1 (sStep s c) e3 e4 (sok_step hs c hl.1) hl.2
    exact ⟨w2, a :: as, by simp only [run, e1, f1], a, as, rfl, e2, f2⟩

/-! ## C76 -/

/-- C76 (partial): in every program with several maps that are copied, moved, assigned, swapped, changed and destroyed, search
results and node handles may be kept; while the entries with their prefix exist, they show the entries stored at the time
of use, in ascending order, wherever the contents have been handed to.  Missing: handles whose last entry was erased and stored again
(`C76_dangling_fails`), results that were empty (`C76_empty_result_fails`), maps with the empty key after a move (`C76_moved_from_fails`), and the calls
excluded by C18 and C19. -/
theorem C76_objects_partial (moved : V → V) (p : List (Cmd V)) (hl : LegalRun SWorld.empty p) :
    ∃ as, answers moved p = .ok as ∧ Answers SWorld.empty p as := by
  have hc : Core (World.empty : World V) SWorld.empty := ⟨rfl, rfl, fun _ _ h => (by cases h), fun _ => trivial⟩
  obtain ⟨w, as, e1, e2⟩ := run_ok moved _ _ hc (fun _ _ h => by cases h)
    ⟨fun _ _ _ h => (by cases h), fun _ _ h => (by cases h)⟩ p hl
  exact ⟨as, by simp only [answers, e1], e2⟩

omit [DecidableEq V] in
/-- C76: no two objects ever share their contents, so a change of one map is not seen through another object. -/
theorem C76_objects_separate (p : List (Cmd V)) (hl : LegalRun SWorld.empty p) (c d a : Nat)
    (h1 : (p.foldl sStep SWorld.empty).holds c = some a) (h2 : (p.foldl sStep SWorld.empty).holds d = some a) : c = d := by
  have : ∀ (p : List (Cmd V)) (s : SWorld V), SOk s → LegalRun s p → SOk (p.foldl sStep s) := by
    intro p
    induction p with
    | nil => exact fun s hs _ => hs
    | cons c cs ih => exact fun s hs hl => ih _ (sok_step hs c hl.1) hl.2
  exact (this p _ ⟨fun _ _ _ h => (by cases h), fun _ _ h => (by cases h)⟩ hl).inj c d a h1 h2

omit [DecidableEq V] in
/-- C76: in the specification a new search shows all entries with the prefix. -/
theorem C76_new_search (s : SWorld V) (c : Nat) (l : List (Key × V)) (h : s.ents c = some l) (pre : Key) :
    s.seen (s.below (.whole c) pre) = some (under pre l) := by
  unfold SWorld.below
  by_cases hk : pre = []
  · rw [if_pos hk]
    have : under pre l = l := by simp [under, hk]
    rw [this]; exact h
  · rw [if_neg hk]
    have hs : s.seen (.whole c) = some l := h
    rw [hs]
    simp only
    split
    · next hu => rw [show under pre l = [] from hu]; rfl
    · unfold SWorld.ents at h
      cases hh : s.holds c with
      | none => rw [hh] at h; cases h
      | some a =>
        rw [hh] at h
        simp only [Option.bind_some] at h
        simp [SWorld.seen, h]

omit [DecidableEq V] in
/-- C76: a kept search result shows what a new search for its prefix in the map that holds the contents now would show. -/
theorem C76_kept_is_new (s : SWorld V) (a : Nat) (q : Key) (c : Nat) (l : List (Key × V)) (hh : s.holds c = some a)
    (hb : s.body a = some l) : s.seen (.part a q) = s.seen (s.below (.whole c) q) := by
  have : s.ents c = some l := by simp [SWorld.ents, hh, hb]
  rw [C76_new_search s c l this]
  simp [SWorld.seen, hb]

/-- Results for "a", "" and a handle for "a" are kept while the contents are swapped and moved. -/
def tour : List (Cmd Nat) := [.make 0, .insert 0 [97, 98] 1, .insert 0 [97, 99] 2, .insert 0 [98] 3, .search 0 0 [97], .search 1 0 [],
  .rootNode 2 0, .child 3 2 97, .make 1, .swap 0 1, .insert 1 [97, 97] 4, .erase 1 [97, 98], .loop 0, .hasChild 3, .hasValue 3,
  .insert 0 [122] 9, .loop 1, .moveNew 2 1, .insert 2 [97] 5, .loop 0, .value 3, .copyNew 4 2, .size 1, .assignMove 1 2, .equal 1 4,
  .loop 0, .size 1, .destroy 2, .assign 0 1, .loop 1]

theorem tour_legal : LegalRun SWorld.empty tour := by
  unfold tour
  simp only [LegalRun]
  refine ⟨?_, ?_, ?_, ?_, ?_, ?_, ?_, ?_, ?_, ?_, ?_, ?_, ?_, ?_, ?_, ?_, ?_, ?_, ?_, ?_, ?_, ?_, ?_, ?_, ?_, ?_, ?_, ?_, ?_, ?_, trivial⟩
  all_goals unfold Legal
  all_goals first
    | decide +kernel
    | exact ⟨_, rfl, rfl, by decide +kernel⟩
    | exact ⟨_, rfl, by decide +kernel, by decide +kernel, fun _ h => by cases h <;> decide +kernel⟩
    | exact ⟨_, rfl, Or.inl (by decide +kernel)⟩
    | exact ⟨_, _, rfl, rfl, rfl, by decide +kernel⟩

example : answers id tour = .ok [.unit, .unit, .unit, .unit, .unit, .unit, .unit, .unit, .unit, .unit, .unit, .bool true,
    .list [([97, 97], 4), ([97, 99], 2)], .bool true, .bool false, .unit, .list [([122], 9)], .unit, .unit,
    .list [([97], 5), ([97, 97], 4), ([97, 99], 2)], .val 5, .unit, .num 0, .unit, .bool true,
    .list [([97], 5), ([97, 97], 4), ([97, 99], 2)], .num 4, .unit, .unit, .list [([97], 5), ([97, 97], 4), ([97, 99], 2), ([98], 3)]] := by
  decide +kernel

/-- C76 does not hold in general: the last key with the prefix "a" is erased and stored again; the kept result is used. -/
theorem C76_dangling_fails : answers (V := Nat) id [.make 0, .insert 0 [97, 98] 1, .search 0 0 [97], .erase 0 [97, 98],
    .insert 0 [97, 98] 1, .loop 0] = .ub := by decide +kernel

/-- C76 does not hold in general: a result that was empty stays empty when a key with the prefix is stored. -/
theorem C76_empty_result_fails : answers (V := Nat) id [.make 0, .search 0 0 [97], .insert 0 [97] 1, .loop 0, .search 1 0 [97], .loop 1] =
    .ok [.unit, .unit, .unit, .list [], .unit, .list [([97], 1)]] := by decide +kernel

/-- C76 does not hold in general: a map that stores the empty key still stores it after it was moved from, with the value that the
move has left; a map without the empty key is empty after a move. -/
theorem C76_moved_from_fails (moved : Nat → Nat) :
    answers moved [.make 0, .insert 0 [] 1, .moveNew 1 0, .size 0, .rootNode 0 0, .hasValue 0, .value 0] =
      .ok [.unit, .unit, .unit, .num 1, .unit, .bool true, .val (moved 1)] ∧
    answers moved [.make 0, .insert 0 [97] 1, .moveNew 1 0, .size 0] = .ok [.unit, .unit, .unit, .num 0] := ⟨rfl, rfl⟩

/-- After `swap` a result for a non-empty prefix follows the contents, a result for the empty prefix stays with the object. -/
theorem C76_swap_follows : answers (V := Nat) id [.make 0, .make 1, .insert 0 [97] 1, .insert 1 [98] 2, .search 0 0 [97], .search 1 0 [],
    .swap 0 1, .loop 0, .loop 1] =
    .ok [.unit, .unit, .unit, .unit, .unit, .unit, .unit, .list [([97], 1)], .list [([98], 2)]] := by decide +kernel

/-- A result must not be used after the map that holds its entries was assigned to or destroyed. -/
theorem C76_assigned_fails : answers (V := Nat) id [.make 0, .make 1, .insert 0 [97] 1, .insert 1 [97] 2, .search 0 0 [97], .assign 0 1,
    .loop 0] = .ub := by decide +kernel

end Mdds.Trie.Obj
