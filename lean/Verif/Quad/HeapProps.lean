import Verif.Quad.HeapLemmas3
import Verif.Quad.Props
/-!
Memory safety of `point_quad_tree` (C65): programs with any number of containers.
-/
namespace Mdds.Quad

open NT

variable {V : Type}

/-! ### Specification -/

/-- What the containers hold, as trees of the model in `Model.lean`: `none` for a name not in use. -/
abbrev Trees (V : Type) := Nat → Option (Tree V)

/-- Effect of a call on the contents. -/
def Call.spec (S : Trees V) : Call V → Trees V
  | .make i => setVar S i (some .nil)
  | .copy i j => setVar S i ((S j).map Quad.copy)
  | .insert i x y d => setVar S i ((S i).map (insertPt x y d))
  | .remove i x y => setVar S i ((S i).map fun t => match removePt t x y with | .ok u => u | _ => t)
  | .clear i => setVar S i (some .nil)
  | .assign i j => setVar S i ((setVar S i (some .nil) j).map Quad.copy)
  | .swap i j => setVar (setVar S i (S j)) j (S i)
  | .destroy i => setVar S i none

/-- Calls for which the theorem is claimed: names are used as in a C++ program, and `remove` meets an empty place or a node
without children. -/
def Legal (S : Trees V) : Call V → Prop
  | .make i => S i = none
  | .copy i j => S i = none ∧ S j ≠ none
  | .insert i _ _ _ => S i ≠ none
  | .remove i x y => S i ≠ none ∧ ∀ t ∈ S i, subtreeAt x y t = .nil ∨ (subtreeAt x y t).isLeaf = true
  | .clear i => S i ≠ none
  | .assign i j => S i ≠ none ∧ S j ≠ none
  | .swap i j => S i ≠ none ∧ S j ≠ none
  | .destroy i => S i ≠ none

/-- A whole program of such calls. -/
def LegalRun (S : Trees V) : List (Call V) → Prop
  | [] => True
  | c :: l => Legal S c ∧ LegalRun (c.spec S) l

instance [DecidableEq V] (S : Trees V) (c : Call V) : Decidable (Legal S c) := by
  cases c <;> unfold Legal <;> infer_instance

instance decLegalRun [DecidableEq V] : ∀ (S : Trees V) (l : List (Call V)), Decidable (LegalRun S l)
  | _, [] => .isTrue trivial
  | S, c :: l => @instDecidableAnd _ _ _ (decLegalRun (c.spec S) l)

/-- The contents after a program. -/
def specRun (S : Trees V) (l : List (Call V)) : Trees V := l.foldl Call.spec S

/-- The node at `a` can be reached from a pointer by going to children. -/
inductive Reach (m : Mem V) : Option Nat → Nat → Prop
  | here (a : Nat) : Reach m (some a) a
  | down {a b : Nat} {c : Cell V} (q : Quadrant) (h : m.cell a = some c) (hr : Reach m (c.kid q) b) : Reach m (some a) b

/-- The tree that is found by following the pointers; the flag of a node says whether its parent pointer leads to the node
above it. -/
def view : Nat → Option Nat → Option Nat → Mem V → Outcome (Tree V)
  | _, _, none, _ => .ok .nil
  | 0, _, some _, _ => .ub
  | f + 1, above, some a, m => (m.get a).bind fun c =>
    (view f (some a) c.ne m).bind fun t1 => (view f (some a) c.nw m).bind fun t2 =>
    (view f (some a) c.se m).bind fun t3 => (view f (some a) c.sw m).bind fun t4 =>
      .ok (.node c.x c.y c.d (c.par == above) t1 t2 t3 t4)

/-! ### Invariant -/

/-- The heap is exactly the disjoint union of the trees of the containers in use. -/
structure Inv (w : World V) (S : Trees V) (g : Nat → Option (NT V)) : Prop where
  var : ∀ i, w.var i = (g i).map root
  spec : ∀ i, S i = (g i).map tree
  owns : ∀ i t, g i = some t → Held w.mem t
  apart : ∀ i j t u, i ≠ j → g i = some t → g j = some u → ∀ b ∈ t.ids, b ∉ u.ids
  all : ∀ b, w.mem.cell b ≠ none → ∃ i t, g i = some t ∧ b ∈ t.ids
  fresh : ∀ b, w.mem.next ≤ b → w.mem.cell b = none

theorem setVar_same {α : Type} (f : Nat → α) (i : Nat) (x : α) : setVar f i x i = x := if_pos rfl
theorem setVar_ne {α : Type} (f : Nat → α) {i j : Nat} (x : α) (h : j ≠ i) : setVar f i x j = f j := if_neg h

theorem map_setVar {α β : Type} (f : α → β) (g : Nat → Option α) (h : Nat → Option β) (i : Nat) (o : Option α)
    (hh : ∀ j, h j = (g j).map f) (j : Nat) : setVar h i (o.map f) j = (setVar g i o j).map f := by
  unfold setVar
  split
  · rfl
  · exact hh j

/-- The nodes a name owns (none if it is not in use). -/
def tr (o : Option (NT V)) : NT V := o.getD nil

theorem Inv.held {w : World V} {S : Trees V} {g : Nat → Option (NT V)} (h : Inv w S g) (i : Nat) : Held w.mem (tr (g i)) := by
  cases hg : g i with
  | none => exact ⟨trivial, trivial, fun b hb => (nomatch hb), h.fresh⟩
  | some t => exact h.owns i t hg

theorem Inv.step {w : World V} {S : Trees V} {g : Nat → Option (NT V)} (h : Inv w S g) (i : Nat) (o : Option (NT V)) {m' : Mem V}
    (hs : Step w.mem (tr (g i)) m' (tr o)) :
    Inv ⟨m', setVar w.var i (o.map root)⟩ (setVar S i (o.map tree)) (setVar g i o) := by
  have hap : ∀ j u, j ≠ i → g j = some u → ∀ b ∈ u.ids, b ∉ (tr (g i)).ids := by
    intro j u hj hu b hb hb'
    cases hg : g i with
    | none => rw [hg] at hb'; cases hb'
    | some t => rw [hg] at hb'; exact h.apart j i u t hj hu hg b hb hb'
  have hsame : ∀ j u, j ≠ i → g j = some u → ∀ b ∈ u.ids, m'.cell b = w.mem.cell b := fun j u hj hu b hb =>
    hs.frame b (hap j u hj hu b hb) ((h.owns j u hu).lt b hb)
  have hfr := hs.held.fresh
  have hnew : ∀ j u, j ≠ i → g j = some u → ∀ b ∈ (tr o).ids, b ∉ u.ids := by
    intro j u hj hu b hb hb'
    rcases hs.ids b hb with h1 | h1
    · exact hap j u hj hu b hb' h1
    · have := (h.owns j u hu).lt b hb'; omega
  refine ⟨fun j => map_setVar root g w.var i o h.var j, fun j => map_setVar tree g S i o h.spec j, fun j u hu => ?_, fun j k t u hjk ht hu b hb hb' => ?_, fun b hb => ?_, hfr⟩
  · by_cases hj : j = i
    · subst hj
      rw [setVar_same] at hu
      subst hu
      exact hs.held
    · rw [setVar_ne _ _ hj] at hu
      have hh := h.owns j u hu
      exact ⟨hh.owns.congr (hsame j u hj hu), hh.distinct, fun b hb => Nat.lt_of_lt_of_le (hh.lt b hb) hs.next, hfr⟩
  · by_cases hj : j = i
    · subst hj
      rw [setVar_same] at ht
      rw [setVar_ne _ _ hjk.symm] at hu
      subst ht
      exact hnew k u hjk.symm hu b hb hb'
    · rw [setVar_ne _ _ hj] at ht
      by_cases hk : k = i
      · subst hk
        rw [setVar_same] at hu
        subst hu
        exact hnew j t hj ht b hb' hb
      · rw [setVar_ne _ _ hk] at hu
        exact h.apart j k t u hjk ht hu b hb hb'
  · by_cases hbo : b ∈ (tr o).ids
    · cases o with
      | none => cases hbo
      | some t => exact ⟨i, t, setVar_same _ _ _, hbo⟩
    · by_cases hbi : b ∈ (tr (g i)).ids
      · exact absurd (hs.gone b hbi hbo) hb
      · by_cases hlt : b < w.mem.next
        · rw [hs.frame b hbi hlt] at hb
          obtain ⟨j, u, hu, hbu⟩ := h.all b hb
          have hj : j ≠ i := fun e => by subst e; rw [hu] at hbi; exact hbi hbu
          exact ⟨j, u, by rw [setVar_ne _ _ hj]; exact hu, hbu⟩
        · exact absurd (hs.fresh b (by omega) hbo) hb

theorem Inv.start : Inv (World.start : World V) (fun _ => none) (fun _ => none) :=
  ⟨fun _ => rfl, fun _ => rfl, fun _ _ h => (nomatch h), fun _ _ _ _ _ h => (nomatch h), fun _ h => absurd rfl h, fun _ _ => rfl⟩

theorem Inv.root {w : World V} {S : Trees V} {g : Nat → Option (NT V)} (h : Inv w S g) {i : Nat} (hi : S i ≠ none) :
    ∃ t, g i = some t ∧ S i = some t.tree ∧ w.root i = .ok t.root := by
  have h1 := h.spec i
  cases hg : g i with
  | none => rw [hg] at h1; exact absurd h1 hi
  | some t =>
    refine ⟨t, rfl, by rw [h1, hg]; rfl, ?_⟩
    simp [World.root, h.var i, hg]

/-- One call keeps the invariant and does what the specification says. -/
theorem Inv.run {w : World V} {S : Trees V} {g : Nat → Option (NT V)} (h : Inv w S g) (c : Call V) (hl : Legal S c) :
    ∃ w' g', c.run w = .ok w' ∧ Inv w' (c.spec S) g' := by
  cases c with
  | make i =>
    have hg : g i = none := by
      have := h.spec i
      rw [show S i = none from hl] at this
      cases hgi : g i with
      | none => rfl
      | some t => rw [hgi] at this; cases this
    refine ⟨_, _, rfl, h.step i (some nil) ?_⟩
    rw [hg]
    exact (by have := h.held i; rw [hg] at this; exact this.step)
  | copy i j =>
    obtain ⟨hi, hj⟩ := hl
    have hg : g i = none := by
      have := h.spec i
      rw [hi] at this
      cases hgi : g i with
      | none => rfl
      | some t => rw [hgi] at this; cases this
    obtain ⟨t, ht, hs, hr⟩ := h.root hj
    have hh := h.owns j t ht
    have hld : Held w.mem (nil : NT V) := ⟨trivial, trivial, fun b hb => (nomatch hb), h.fresh⟩
    obtain ⟨m', t', r1, s1, e1⟩ := insertAllH_spec (allData t.tree) hld
    refine ⟨⟨m', setVar w.var i (some t'.root)⟩, setVar g i (some t'), ?_, ?_⟩
    · simp only [Call.run, hr, obind_ok]
      rw [allDataH_spec hh.owns (Nat.le_succ_of_le (depth_le hh.distinct hh.lt))]
      simp only [obind_ok]
      rw [show insertAllH (allData t.tree) none w.mem = .ok (t'.root, m') from r1]
      rfl
    · have := h.step i (some t') (m' := m') (by rw [hg]; exact s1)
      simp only [Call.spec, hs, Option.map_some]
      rw [show copy t.tree = t'.tree from e1.symm]
      exact this
  | insert i x y d =>
    obtain ⟨t, ht, hs, hr⟩ := h.root hl
    obtain ⟨m', r1, s1⟩ := insertH_spec x y d (h.owns i t ht)
    refine ⟨⟨m', setVar w.var i (some (ins w.mem.next x y d t).root)⟩, setVar g i (some (ins w.mem.next x y d t)), ?_, ?_⟩
    rotate_left
    · have := h.step i (some (ins w.mem.next x y d t)) (m' := m') (by rw [ht]; exact s1)
      simp only [Call.spec, hs, Option.map_some]
      rw [← ins_tree w.mem.next]
      exact this
    · simp only [Call.run, hr, obind_ok, r1]
  | remove i x y =>
    obtain ⟨t, ht, hs, hr⟩ := h.root (i := i) hl.1
    obtain ⟨m', t', r1, e1, s1⟩ := removeH_spec x y (h.owns i t ht) (hl.2 _ hs)
    refine ⟨⟨m', setVar w.var i (some t'.root)⟩, setVar g i (some t'), ?_, ?_⟩
    rotate_left
    · have := h.step i (some t') (m' := m') (by rw [ht]; exact s1)
      simp only [Call.spec, hs, Option.map_some, e1]
      exact this
    · simp only [Call.run, hr, obind_ok, r1]
  | clear i =>
    obtain ⟨t, ht, hs, hr⟩ := h.root hl
    obtain ⟨m', r1, s1⟩ := clearH_spec (h.owns i t ht)
    refine ⟨⟨m', setVar w.var i (some none)⟩, _, ?_, h.step i (some nil) (m' := m') (by rw [ht]; exact s1)⟩
    simp only [Call.run, hr, obind_ok, r1]
  | assign i j =>
    obtain ⟨hi, hj⟩ := hl
    obtain ⟨t, ht, hs, hr⟩ := h.root hi
    obtain ⟨m1, r1, s1⟩ := clearH_spec (h.owns i t ht)
    have h1 := h.step i (some nil) (m' := m1) (by rw [ht]; exact s1)
    obtain ⟨u, hu, hsu, hru⟩ := h1.root (i := j) (by
      by_cases e : j = i
      · subst e; rw [setVar_same]; exact fun e => nomatch e
      · rw [setVar_ne _ _ e]; exact hj)
    have hh := h1.owns j u hu
    have hld : Held m1 (nil : NT V) := s1.held
    obtain ⟨m2, t', r2, s2, e2⟩ := insertAllH_spec (allData u.tree) hld
    have h2 := h1.step i (some t') (m' := m2) (by rw [setVar_same]; exact s2)
    have hset : ∀ {α : Type} (f : Nat → α) (x z : α), setVar (setVar f i x) i z = setVar f i z := by
      intro α f x z; funext k; unfold setVar; split <;> rfl
    rw [hset, hset, hset] at h2
    refine ⟨⟨m2, setVar w.var i (some t'.root)⟩, setVar g i (some t'), ?_, ?_⟩
    rotate_left
    · simp only [Call.spec]
      have : setVar S i (some .nil) j = some u.tree := hsu
      rw [this, Option.map_some, show copy u.tree = t'.tree from e2.symm]
      exact h2
    · simp only [Call.run, hr, obind_ok, r1]
      rw [show World.root ⟨m1, setVar w.var i (some none)⟩ j = .ok u.root from hru]
      simp only [obind_ok]
      rw [allDataH_spec hh.owns (Nat.le_succ_of_le (depth_le hh.distinct hh.lt))]
      simp only [obind_ok]
      rw [show insertAllH (allData u.tree) none m1 = .ok (t'.root, m2) from r2]
      rfl
  | swap i j =>
    obtain ⟨hi, hj⟩ := hl
    obtain ⟨t, ht, hs, hr⟩ := h.root hi
    obtain ⟨u, hu, hsu, hru⟩ := h.root hj
    refine ⟨⟨w.mem, setVar (setVar w.var i (some u.root)) j (some t.root)⟩, setVar (setVar g i (some u)) j (some t), ?_, ?_⟩
    · simp only [Call.run, hr, hru, obind_ok]
    · -- a renaming
      let s : Nat → Nat := fun k => if k = j then i else if k = i then j else k
      have hsj : ∀ {α : Type} (f : Nat → α) (k : Nat), setVar (setVar f i (f j)) j (f i) k = f (s k) := by
        intro α f k
        simp only [setVar, s]
        by_cases h1 : k = j
        · simp [h1]
        · by_cases h2 : k = i
          · subst h2; simp [h1]
          · simp [h1, h2]
      have hinj : ∀ k l, k ≠ l → s k ≠ s l := by
        intro k l hkl
        simp only [s]
        split <;> split <;> (try split) <;> (try split) <;> omega
      have hg : ∀ k, setVar (setVar g i (some u)) j (some t) k = g (s k) := fun k => by rw [← hsj g k, hu, ht]
      refine ⟨fun k => ?_, fun k => ?_, fun k v hv => ?_, fun k l v z hkl hv hz => ?_, fun b hb => ?_, h.fresh⟩
      · rw [hg, ← h.var, ← hsj w.var k, h.var i, h.var j, ht, hu]; rfl
      · rw [hg, ← h.spec, ← hsj S k]; rfl
      · rw [hg] at hv; exact h.owns _ v hv
      · rw [hg] at hv hz
        exact h.apart (s k) (s l) v z (hinj k l hkl) hv hz
      · obtain ⟨k, v, hv, hbv⟩ := h.all b hb
        refine ⟨s k, v, ?_, hbv⟩
        rw [hg]
        have : s (s k) = k := by
          simp only [s]
          split <;> split <;> (try split) <;> omega
        rw [this]; exact hv
  | destroy i =>
    obtain ⟨t, ht, hs, hr⟩ := h.root hl
    obtain ⟨m', r1, s1⟩ := clearH_spec (h.owns i t ht)
    refine ⟨⟨m', setVar w.var i none⟩, _, ?_, h.step i none (m' := m') (by rw [ht]; exact s1)⟩
    simp only [Call.run, hr, obind_ok, r1]

theorem Inv.runs {w : World V} {S : Trees V} {g : Nat → Option (NT V)} (h : Inv w S g) (l : List (Call V)) (hl : LegalRun S l) :
    ∃ w' g', w.run l = .ok w' ∧ Inv w' (specRun S l) g' := by
  induction l generalizing w S g with
  | nil => exact ⟨w, g, rfl, h⟩
  | cons c l ih =>
    obtain ⟨w1, g1, r1, i1⟩ := h.run c hl.1
    obtain ⟨w2, g2, r2, i2⟩ := ih i1 hl.2
    exact ⟨w2, g2, by simp only [World.run, r1, obind_ok, r2], i2⟩

theorem Owns.reach {m : Mem V} {p : Option Nat} {t : NT V} (h : Owns m p t) {b : Nat} : Reach m t.root b ↔ b ∈ t.ids := by
  induction t generalizing p with
  | nil => exact ⟨fun h => (nomatch h), fun h => (nomatch h)⟩
  | node a x y d kids ih =>
    obtain ⟨⟨c, hc, rfl, rfl, rfl, hrc, hpar, hkid⟩, hk⟩ := h
    constructor
    · intro hr
      generalize hp : (node a c.x c.y c.d kids).root = o at hr
      cases hr with
      | here => cases hp; exact NT.mem_node.2 (.inl rfl)
      | down q h2 hr =>
        cases hp
        rw [hc] at h2; cases h2
        rw [hkid q] at hr
        exact mem_kid ((ih q (hk q)).1 hr)
    · intro hb
      rcases NT.mem_node.1 hb with e | ⟨q, hb⟩
      · subst e; exact .here _
      · exact .down q hc (by rw [hkid q]; exact (ih q (hk q)).2 hb)

theorem Owns.view {m : Mem V} {p : Option Nat} {t : NT V} {f : Nat} (h : Owns m p t) (hf : t.depth ≤ f) :
    Quad.view f p t.root m = .ok t.tree := by
  induction t generalizing p f with
  | nil => cases f <;> rfl
  | node a x y d kids ih =>
    obtain ⟨⟨c, hc, rfl, rfl, rfl, hrc, hpar, hkid⟩, hk⟩ := h
    obtain ⟨f, rfl⟩ : ∃ g, f = g + 1 := ⟨f - 1, by simp only [depth] at hf; omega⟩
    have hi : ∀ q, Quad.view f (some a) (c.kid q) m = .ok (kids q).tree := fun q => by
      rw [hkid q]; exact ih q (hk q) (by have := depth_kid a c.x c.y c.d kids q; omega)
    have h1 := hi .ne; have h2 := hi .nw; have h3 := hi .se; have h4 := hi .sw
    simp only [Cell.kid] at h1 h2 h3 h4
    simp [NT.root, Quad.view, get_eq hc, h1, h2, h3, h4, tree, hpar]

/-! ### C65 -/

/-- **C65.**  Whatever a program does with any number of containers, as long as `remove` only meets points that are absent
or whose node has no children: no deleted node and no null pointer is ever followed and no exception is thrown; at the end
every container holds the tree of the model in `Model.lean`, parent pointers included; -/
theorem C65_refines_partial (l : List (Call V)) (hl : LegalRun (fun _ => none) l) :
    ∃ w, World.run World.start l = .ok w ∧ ∀ i, match specRun (fun _ => none) l i with
      | none => w.var i = none
      | some t => ∃ r, w.var i = some r ∧ view (w.mem.next + 1) none r w.mem = .ok t := by
  obtain ⟨w, g, hr, hi⟩ := Inv.start.runs l hl
  refine ⟨w, hr, fun i => ?_⟩
  rw [hi.spec i, hi.var i]
  cases hg : g i with
  | none => rfl
  | some t =>
    have h := hi.owns i t hg
    exact ⟨_, rfl, h.owns.view (Nat.le_succ_of_le (depth_le h.distinct h.lt))⟩

/-- no node is reachable from two containers, and every node in the heap is reachable from a container in use; -/
theorem C65_owned_partial (l : List (Call V)) (hl : LegalRun (fun _ => none) l) {w : World V} (hr : World.run World.start l = .ok w) :
    (∀ i j r s b, w.var i = some r → w.var j = some s → Reach w.mem r b → Reach w.mem s b → i = j) ∧
    ∀ b, w.mem.cell b ≠ none ↔ ∃ i r, w.var i = some r ∧ Reach w.mem r b := by
  obtain ⟨w', g, hr', hi⟩ := Inv.start.runs l hl
  rw [hr] at hr'; cases hr'
  have hv : ∀ i r, w.var i = some r → ∃ t, g i = some t ∧ r = t.root ∧ Owns w.mem none t := by
    intro i r h
    rw [hi.var i] at h
    cases hg : g i with
    | none => rw [hg] at h; cases h
    | some t => rw [hg] at h; cases h; exact ⟨t, rfl, rfl, (hi.owns i t hg).owns⟩
  refine ⟨fun i j r s b h1 h2 r1 r2 => ?_, fun b => ⟨fun h => ?_, fun ⟨i, r, h1, r1⟩ => ?_⟩⟩
  · obtain ⟨t, ht, rfl, ot⟩ := hv i r h1
    obtain ⟨u, hu, rfl, ou⟩ := hv j s h2
    by_contra hne
    exact hi.apart i j t u hne ht hu b (ot.reach.1 r1) (ou.reach.1 r2)
  · obtain ⟨i, t, ht, hb⟩ := hi.all b h
    exact ⟨i, t.root, by rw [hi.var i, ht]; rfl, (hi.owns i t ht).owns.reach.2 hb⟩
  · obtain ⟨t, ht, rfl, ot⟩ := hv i r h1
    obtain ⟨c, hc⟩ := ot.live (ot.reach.1 r1)
    rw [hc]; exact fun e => nomatch e

/-- so nothing is left when the last container is gone. -/
theorem C65_no_leak_partial (l : List (Call V)) (hl : LegalRun (fun _ => none) l) {w : World V} (hr : World.run World.start l = .ok w)
    (hend : ∀ i, w.var i = none) (b : Nat) : w.mem.cell b = none := by
  by_contra h
  obtain ⟨i, r, h1, _⟩ := ((C65_owned_partial l hl hr).2 b).1 h
  rw [hend i] at h1; cases h1

/-- `find` in the heap is `find` in the model. -/
theorem findH_spec {m : Mem V} {t : NT V} (x y : Int) (h : Held m t) : findH x y t.root m = find t.tree x y := by
  cases hroot : t.root with
  | none => rw [root_none hroot]; rfl
  | some r =>
    have hw := walk_spec x y h.owns hroot (f := m.next + 1) (Nat.le_succ_of_le (depth_le h.distinct h.lt))
    have key : ∀ (p : Option Nat) (u : NT V), Owns m p u → ∀ w, look x y u = some w →
        (match w.2 with | some _ => Outcome.err .dataNotFound | none => (m.get w.1).bind fun c => .ok c.d) = find u.tree x y := by
      intro p u
      induction u generalizing p with
      | nil => intro _ w hw; cases hw
      | node a x0 y0 d kids ih =>
        intro ho w hl
        obtain ⟨⟨c, hc, rfl, rfl, rfl, hrc, hpar, hkid⟩, hk⟩ := ho
        simp only [look] at hl
        simp only [find, tree, findNode]
        split at hl
        · rename_i he
          cases hl
          rw [if_pos he]
          simp [get_eq hc]
        · rename_i hne
          rw [if_neg hne]
          have hgen : ∀ q, (match look x y (kids q) with | none => some (a, some q) | some r => some r) = some w →
              (match w.2 with | some _ => Outcome.err .dataNotFound | none => (m.get w.1).bind fun c => .ok c.d) = find (kids q).tree x y := by
            intro q hl
            split at hl
            · next hln => cases hl; rw [look_none] at hln; rw [hln]; rfl
            · next r hr => cases hl; exact ih q _ (hk q) _ hr
          have := hgen _ hl
          rw [this]
          generalize getQuadrant c.x c.y x y = q
          cases q <;> rfl
    cases hl : look x y t with
    | none => exact absurd (look_none.1 hl) (root_ne_nil hroot)
    | some w =>
      rw [hl] at hw
      simp only [findH, hw, Outcome.ofOption_some, obind_ok]
      exact key none t h.owns w hl

theorem C65_find_partial (l : List (Call V)) (hl : LegalRun (fun _ => none) l) {w : World V} (hr : World.run World.start l = .ok w)
    {i : Nat} {t : Tree V} (ht : specRun (fun _ => none) l i = some t) (x y : Int) :
    ∃ r, w.var i = some r ∧ findH x y r w.mem = find t x y := by
  obtain ⟨w', g, hr', hi⟩ := Inv.start.runs l hl
  rw [hr] at hr'; cases hr'
  rw [hi.spec i] at ht
  cases hg : g i with
  | none => rw [hg] at ht; cases ht
  | some u =>
    rw [hg] at ht; cases ht
    exact ⟨u.root, by rw [hi.var i, hg]; rfl, findH_spec x y (hi.owns i u hg)⟩

/-- The number of nodes left in the heap. -/
def World.left (w : World V) : Nat := ((List.range w.mem.next).filter fun a => (w.mem.cell a).isSome).length

/-- What is left after a program (`none` if it did not get to its end). -/
def leftAfter (l : List (Call V)) : Option Nat :=
  match World.run World.start l with
  | .ok w => some w.left
  | _ => none

/-- A program with three containers, nested nodes, an overwritten point, leaf removals (one of them of the root), a copy, an
assignment and a swap. -/
def exampleProgram : List (Call Nat) :=
  [.make 0, .insert 0 10 10 1, .insert 0 20 20 2, .insert 0 5 20 3, .insert 0 30 25 4, .insert 0 20 20 5, .remove 0 30 25,
    .remove 0 7 7, .copy 1 0, .make 2, .insert 2 0 0 9, .assign 2 1, .insert 1 40 1 6, .swap 0 1, .clear 1, .insert 1 3 3 3, .remove 1 3 3]

example : LegalRun (fun _ => none) exampleProgram := by decide +kernel

/-- After it 7 nodes are there: four in container 0, none in container 1, three in container 2; after the three destructors
none. -/
example : leftAfter exampleProgram = some 7 ∧ leftAfter (exampleProgram ++ [.destroy 0, .destroy 1, .destroy 2]) = some 0 := by
  decide +kernel

/-- **C65 fails for other removals: a leak.**  Two points are inserted and removed again, first the one whose node has the
other as a child.  `remove` makes the node its own parent, so it owns itself; when it is removed as the last one it stays in
the heap, although the container is empty and then destroyed. -/
theorem C65_leak_fails : leftAfter [.make 0, .insert 0 0 0 'a', .insert 0 1 1 'b', .remove 0 0 0, .remove 0 1 1, .destroy 0] = some 1 := by
  decide +kernel

/-- The same with `clear` instead of the second `remove`: here the node is set free. -/
example : leftAfter [.make 0, .insert 0 0 0 'a', .insert 0 1 1 'b', .remove 0 0 0, .destroy 0] = some 0 := by decide +kernel

/-- **And a larger one.**  Four points towards the south-east, each further in the north-west of the one before; the removal
of the first loses the second and the third from the container (C47), and all four nodes stay in the heap after the
destructor: the parent pointers form cycles that `clear` does not see. -/
theorem C65_leak_subtree_fails : leftAfter [.make 0, .insert 0 0 0 'a', .insert 0 100 100 'b', .insert 0 50 50 'c', .insert 0 5 5 'd',
    .remove 0 0 0, .destroy 0] = some 4 := by
  decide +kernel

theorem bind_ok_inv {α β : Type} {x : Outcome α} {f : α → Outcome β} {b : β} (h : x.bind f = .ok b) : ∃ a, x = .ok a ∧ f a = .ok b := by
  cases x with
  | ok a => exact ⟨a, rfl, h⟩
  | err e => cases h
  | ub => cases h

/-- The names a call changes. -/
def Call.names : Call V → List Nat
  | .make i | .copy i _ | .insert i _ _ _ | .remove i _ _ | .clear i | .assign i _ | .destroy i => [i]
  | .swap i j => [i, j]

theorem Call.run_var {w w' : World V} {c : Call V} (h : c.run w = .ok w') {k : Nat} (hk : k ∉ c.names) : w'.var k = w.var k := by
  have hs : ∀ (i : Nat) (o : Option (Option Nat)), k ∉ [i] → setVar w.var i o k = w.var k := fun i o hi => if_neg (by simpa using hi)
  cases c with
  | make i => cases h; exact hs _ _ hk
  | copy i j =>
    obtain ⟨_, _, h⟩ := bind_ok_inv h
    obtain ⟨_, _, h⟩ := bind_ok_inv h
    obtain ⟨_, _, h⟩ := bind_ok_inv h
    cases h; exact hs _ _ hk
  | insert i x y d =>
    obtain ⟨_, _, h⟩ := bind_ok_inv h
    obtain ⟨_, _, h⟩ := bind_ok_inv h
    cases h; exact hs _ _ hk
  | remove i x y =>
    obtain ⟨_, _, h⟩ := bind_ok_inv h
    obtain ⟨_, _, h⟩ := bind_ok_inv h
    cases h; exact hs _ _ hk
  | clear i =>
    obtain ⟨_, _, h⟩ := bind_ok_inv h
    obtain ⟨_, _, h⟩ := bind_ok_inv h
    cases h; exact hs _ _ hk
  | assign i j =>
    obtain ⟨_, _, h⟩ := bind_ok_inv h
    obtain ⟨_, _, h⟩ := bind_ok_inv h
    obtain ⟨_, _, h⟩ := bind_ok_inv h
    obtain ⟨_, _, h⟩ := bind_ok_inv h
    obtain ⟨_, _, h⟩ := bind_ok_inv h
    cases h; exact hs _ _ hk
  | swap i j =>
    obtain ⟨_, _, h⟩ := bind_ok_inv h
    obtain ⟨_, _, h⟩ := bind_ok_inv h
    cases h
    simp only [Call.names, List.mem_cons, List.not_mem_nil, or_false, not_or] at hk
    simp [setVar, hk.1, hk.2]
  | destroy i =>
    obtain ⟨_, _, h⟩ := bind_ok_inv h
    obtain ⟨_, _, h⟩ := bind_ok_inv h
    cases h; exact hs _ _ hk

theorem World.run_var {l : List (Call V)} {w w' : World V} (h : w.run l = .ok w') {k : Nat} (hk : ∀ c ∈ l, k ∉ c.names) : w'.var k = w.var k := by
  induction l generalizing w with
  | nil => cases h; rfl
  | cons c l ih =>
    obtain ⟨w1, h1, h2⟩ := bind_ok_inv h
    rw [ih h2 fun c hc => hk c (List.mem_cons_of_mem _ hc)]
    exact Call.run_var h1 (hk c (List.mem_cons_self ..))

/-- So the statement without the restriction on removals is false. -/
theorem C65_no_leak_fails : ¬ ∀ (l : List (Call Char)) (w : World Char), World.run World.start l = .ok w → (∀ i, w.var i = none) → ∀ b, w.mem.cell b = none := by
  intro h
  have hl := C65_leak_fails
  have h0 : (match World.run World.start [.make 0, .insert 0 0 0 'a', .insert 0 1 1 'b', .remove 0 0 0, .remove 0 1 1, .destroy 0] with
    | .ok w => w.var 0 | _ => some none) = none := by decide +kernel
  unfold leftAfter at hl
  split at hl
  · rename_i w hw
    rw [hw] at h0
    have h1 := h _ w hw (fun i => by
      by_cases hi : i = 0
      · subst hi; exact h0
      · rw [World.run_var hw (by simp [Call.names, hi])]; rfl)
    have h2 : w.left = 0 := by simp [World.left, h1]
    rw [h2] at hl; cases hl
  · cases hl

end Mdds.Quad
