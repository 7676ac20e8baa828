import Verif.Quad.Heap
import Mathlib.Data.List.Nodup
import Mathlib.Data.List.Perm.Subperm
/-!
Lemmas about the memory model of `point_quad_tree`: a container owns a tree of distinct nodes with exact counts.
-/
namespace Mdds.Quad

variable {V : Type}

@[simp] theorem obind_ok {α β : Type} (a : α) (f : α → Outcome β) : Outcome.bind (.ok a) f = f a := rfl
@[simp] theorem obind_ub {α β : Type} (f : α → Outcome β) : Outcome.bind (.ub) f = .ub := rfl

/-- The nodes below a pointer with their addresses (used in the invariant only). -/
inductive NT (V : Type) where
  | nil
  | node (a : Nat) (x y : Int) (d : V) (kids : Quadrant → NT V)

namespace NT

/-- Pointer to the root. -/
def root : NT V → Option Nat
  | nil => none
  | node a .. => some a

/-- All addresses. -/
def ids : NT V → List Nat
  | nil => []
  | node a _ _ _ kids => a :: (ids (kids .ne) ++ ids (kids .nw) ++ ids (kids .se) ++ ids (kids .sw))

/-- One if there is a node. -/
def occ : NT V → Nat
  | nil => 0
  | node .. => 1

/-- Height. -/
def depth : NT V → Nat
  | nil => 0
  | node _ _ _ _ kids => 1 + max (max (depth (kids .ne)) (depth (kids .nw))) (max (depth (kids .se)) (depth (kids .sw)))

/-- The same tree without addresses; all parent pointers are right. -/
def tree : NT V → Tree V
  | nil => .nil
  | node _ x y d kids => .node x y d true (tree (kids .ne)) (tree (kids .nw)) (tree (kids .se)) (tree (kids .sw))

/-- No address occurs twice. -/
def Distinct : NT V → Prop
  | nil => True
  | node a _ _ _ kids => (∀ q, a ∉ (kids q).ids) ∧ (∀ q, Distinct (kids q)) ∧
      ∀ q r, q ≠ r → ∀ b ∈ (kids q).ids, b ∉ (kids r).ids

theorem mem_node {a : Nat} {x y : Int} {d : V} {kids : Quadrant → NT V} {b : Nat} :
    b ∈ (node a x y d kids).ids ↔ b = a ∨ ∃ q, b ∈ (kids q).ids := by
  simp only [ids, List.mem_cons, List.mem_append]
  constructor
  · rintro (h | ((h | h) | h) | h)
    · exact .inl h
    · exact .inr ⟨_, h⟩
    · exact .inr ⟨_, h⟩
    · exact .inr ⟨_, h⟩
    · exact .inr ⟨_, h⟩
  · rintro (h | ⟨q, h⟩)
    · exact .inl h
    · cases q <;> simp [h]

theorem mem_kid {a : Nat} {x y : Int} {d : V} {kids : Quadrant → NT V} {b : Nat} {q : Quadrant} (h : b ∈ (kids q).ids) :
    b ∈ (node a x y d kids).ids := mem_node.2 (.inr ⟨q, h⟩)

theorem mem_root {t : NT V} {a : Nat} (h : t.root = some a) : a ∈ t.ids := by
  cases t with
  | nil => cases h
  | node b x y d kids => cases h; exact mem_node.2 (.inl rfl)

/-- Number of children. -/
def cnt (kids : Quadrant → NT V) : Nat := (kids .ne).occ + (kids .nw).occ + (kids .se).occ + (kids .sw).occ

/-- Replace one child. -/
def upd (kids : Quadrant → NT V) (q : Quadrant) (t : NT V) : Quadrant → NT V := fun r => if r = q then t else kids r

@[simp] theorem upd_same (kids : Quadrant → NT V) (q : Quadrant) (t : NT V) : upd kids q t q = t := if_pos rfl
theorem upd_ne (kids : Quadrant → NT V) {q r : Quadrant} (t : NT V) (h : r ≠ q) : upd kids q t r = kids r := if_neg h

theorem cnt_upd (kids : Quadrant → NT V) (q : Quadrant) (t : NT V) :
    cnt (upd kids q t) + (kids q).occ = cnt kids + t.occ := by
  cases q <;> simp [cnt, upd] <;> omega

theorem occ_root {t u : NT V} (h : t.root = u.root) : t.occ = u.occ := by
  cases t <;> cases u <;> simp_all [root, occ]

theorem occ_le_cnt (kids : Quadrant → NT V) (q : Quadrant) : (kids q).occ ≤ cnt kids := by
  cases q <;> simp only [cnt] <;> omega

theorem depth_kid (a : Nat) (x y : Int) (d : V) (kids : Quadrant → NT V) (q : Quadrant) :
    (kids q).depth + 1 ≤ (node a x y d kids).depth := by
  cases q <;> simp only [depth] <;> omega

theorem distinct_nodup {t : NT V} (h : t.Distinct) : t.ids.Nodup := by
  induction t with
  | nil => exact List.nodup_nil
  | node a x y d kids ih =>
    obtain ⟨h1, h2, h3⟩ := h
    have hd : ∀ q r, q ≠ r → List.Disjoint (kids q).ids (kids r).ids := fun q r hne b hb hb' => h3 q r hne b hb hb'
    simp only [ids, List.nodup_cons, List.mem_append, not_or, List.nodup_append', List.disjoint_append_left]
    refine ⟨⟨⟨⟨h1 _, h1 _⟩, h1 _⟩, h1 _⟩, ⟨⟨ih _ (h2 _), ih _ (h2 _), hd _ _ (by decide)⟩, ih _ (h2 _), hd _ _ (by decide), hd _ _ (by decide)⟩,
      ih _ (h2 _), ⟨hd _ _ (by decide), hd _ _ (by decide)⟩, hd _ _ (by decide)⟩

theorem depth_le_ids (t : NT V) : t.depth ≤ t.ids.length := by
  induction t with
  | nil => exact Nat.le_refl _
  | node a x y d kids ih =>
    have h1 := ih .ne; have h2 := ih .nw; have h3 := ih .se; have h4 := ih .sw
    simp only [depth, ids, List.length_cons, List.length_append]
    omega

theorem depth_le {t : NT V} {n : Nat} (h : t.Distinct) (hlt : ∀ b ∈ t.ids, b < n) : t.depth ≤ n := by
  have hs : t.ids.Subperm (List.range n) := List.subperm_of_subset (distinct_nodup h) (fun b hb => List.mem_range.2 (hlt b hb))
  have := hs.length_le
  rw [List.length_range] at this
  exact Nat.le_trans (depth_le_ids t) this

/-- Where the walk to a point ends. -/
def look (x y : Int) : NT V → Option (Nat × Option Quadrant)
  | nil => none
  | node a x0 y0 _ kids =>
    if x0 = x ∧ y0 = y then some (a, none)
    else match look x y (kids (getQuadrant x0 y0 x y)) with
      | none => some (a, some (getQuadrant x0 y0 x y))
      | some r => some r

theorem look_none {x y : Int} {t : NT V} : look x y t = none ↔ t = nil := by
  cases t with
  | nil => simp [look]
  | node a x0 y0 d kids =>
    simp only [look, reduceCtorEq, iff_false]
    split
    · simp
    · split <;> simp

theorem look_mem {x y : Int} {t : NT V} {a : Nat} {o : Option Quadrant} (h : look x y t = some (a, o)) : a ∈ t.ids := by
  induction t with
  | nil => cases h
  | node b x0 y0 d kids ih =>
    simp only [look] at h
    split at h
    · cases h; exact mem_node.2 (.inl rfl)
    · split at h
      · cases h; exact mem_node.2 (.inl rfl)
      · next r hr => cases h; exact mem_kid (ih _ hr)

/-- Insert a point, a new node at address `n`. -/
def ins (n : Nat) (x y : Int) (d : V) : NT V → NT V
  | nil => node n x y d (fun _ => nil)
  | node a x0 y0 d0 kids =>
    if x0 = x ∧ y0 = y then node a x0 y0 d kids
    else node a x0 y0 d0 (upd kids (getQuadrant x0 y0 x y) (ins n x y d (kids (getQuadrant x0 y0 x y))))

/-- Take out the (leaf) node at a point. -/
def del (x y : Int) : NT V → NT V
  | nil => nil
  | node a x0 y0 d0 kids =>
    if x0 = x ∧ y0 = y then nil
    else node a x0 y0 d0 (upd kids (getQuadrant x0 y0 x y) (del x y (kids (getQuadrant x0 y0 x y))))

theorem ins_root {t : NT V} (n : Nat) (x y : Int) (d : V) (h : t ≠ nil) : (ins n x y d t).root = t.root := by
  cases t with
  | nil => exact absurd rfl h
  | node a x0 y0 d0 kids => simp only [ins]; split <;> rfl

theorem ins_ids {n : Nat} {x y : Int} {d : V} {t : NT V} {b : Nat} (h : b ∈ (ins n x y d t).ids) : b ∈ t.ids ∨ b = n := by
  induction t with
  | nil =>
    rcases mem_node.1 h with h | ⟨q, h⟩
    · exact .inr h
    · cases h
  | node a x0 y0 d0 kids ih =>
    simp only [ins] at h
    split at h
    · exact .inl (mem_node.2 (mem_node.1 h))
    · rcases mem_node.1 h with h | ⟨q, h⟩
      · exact .inl (mem_node.2 (.inl h))
      · by_cases hq : q = getQuadrant x0 y0 x y
        · subst hq
          rw [upd_same] at h
          rcases ih _ h with h | h
          · exact .inl (mem_kid h)
          · exact .inr h
        · rw [upd_ne _ _ hq] at h
          exact .inl (mem_kid h)

theorem ids_ins {n : Nat} {x y : Int} {d : V} {t : NT V} {b : Nat} (h : b ∈ t.ids) : b ∈ (ins n x y d t).ids := by
  induction t with
  | nil => cases h
  | node a x0 y0 d0 kids ih =>
    simp only [ins]
    split
    · exact mem_node.2 (mem_node.1 h)
    · rcases mem_node.1 h with h | ⟨q, h⟩
      · exact mem_node.2 (.inl h)
      · by_cases hq : q = getQuadrant x0 y0 x y
        · subst hq
          refine mem_node.2 (.inr ⟨getQuadrant x0 y0 x y, ?_⟩)
          rw [upd_same]; exact ih _ h
        · refine mem_node.2 (.inr ⟨q, ?_⟩)
          rw [upd_ne _ _ hq]; exact h

theorem ins_distinct {n : Nat} {x y : Int} {d : V} {t : NT V} (h : t.Distinct) (hn : n ∉ t.ids) : (ins n x y d t).Distinct := by
  induction t with
  | nil => exact ⟨fun _ h => (nomatch h), fun _ => trivial, fun _ _ _ b hb => (nomatch hb)⟩
  | node a x0 y0 d0 kids ih =>
    obtain ⟨h1, h2, h3⟩ := h
    simp only [ins]
    split
    · exact ⟨h1, h2, h3⟩
    · have hna : n ≠ a := fun e => hn (mem_node.2 (.inl e))
      have hnk : ∀ q, n ∉ (kids q).ids := fun q hq => hn (mem_kid hq)
      refine ⟨fun q hq => ?_, fun q => ?_, fun q r hqr b hb hb' => ?_⟩
      · by_cases e : q = getQuadrant x0 y0 x y
        · subst e; rw [upd_same] at hq
          rcases ins_ids hq with h | h
          · exact h1 _ h
          · exact hna h.symm
        · rw [upd_ne _ _ e] at hq; exact h1 _ hq
      · by_cases e : q = getQuadrant x0 y0 x y
        · subst e; rw [upd_same]; exact ih _ (h2 _) (hnk _)
        · rw [upd_ne _ _ e]; exact h2 _
      · by_cases e : q = getQuadrant x0 y0 x y
        · subst e
          rw [upd_same] at hb
          rw [upd_ne _ _ (Ne.symm hqr)] at hb'
          rcases ins_ids hb with h | h
          · exact h3 _ _ hqr b h hb'
          · subst h; exact hnk _ hb'
        · rw [upd_ne _ _ e] at hb
          by_cases e' : r = getQuadrant x0 y0 x y
          · subst e'
            rw [upd_same] at hb'
            rcases ins_ids hb' with h | h
            · exact h3 _ _ hqr b hb h
            · subst h; exact hnk _ hb
          · rw [upd_ne _ _ e'] at hb'
            exact h3 _ _ hqr b hb hb'

theorem ins_tree (n : Nat) (x y : Int) (d : V) (t : NT V) : (ins n x y d t).tree = insertPt x y d t.tree := by
  induction t with
  | nil => rfl
  | node a x0 y0 d0 kids ih =>
    simp only [ins, tree, insertPt]
    split
    · rfl
    · generalize getQuadrant x0 y0 x y = q at ih ⊢
      cases q <;> simp [tree, upd, ih]

theorem del_ids {x y : Int} {t : NT V} {b : Nat} (h : b ∈ (del x y t).ids) : b ∈ t.ids := by
  induction t with
  | nil => cases h
  | node a x0 y0 d0 kids ih =>
    simp only [del] at h
    split at h
    · cases h
    · rcases mem_node.1 h with h | ⟨q, h⟩
      · exact mem_node.2 (.inl h)
      · by_cases hq : q = getQuadrant x0 y0 x y
        · subst hq
          rw [upd_same] at h
          exact mem_kid (ih _ h)
        · rw [upd_ne _ _ hq] at h
          exact mem_kid h

theorem del_distinct {x y : Int} {t : NT V} (h : t.Distinct) : (del x y t).Distinct := by
  induction t with
  | nil => trivial
  | node a x0 y0 d0 kids ih =>
    obtain ⟨h1, h2, h3⟩ := h
    simp only [del]
    split
    · trivial
    · have hsub : ∀ q b, b ∈ (upd kids (getQuadrant x0 y0 x y) (del x y (kids (getQuadrant x0 y0 x y))) q).ids → b ∈ (kids q).ids := by
        intro q b hb
        by_cases e : q = getQuadrant x0 y0 x y
        · subst e; rw [upd_same] at hb; exact del_ids hb
        · rw [upd_ne _ _ e] at hb; exact hb
      refine ⟨fun q hq => h1 q (hsub _ _ hq), fun q => ?_, fun q r hqr b hb hb' => h3 q r hqr b (hsub _ _ hb) (hsub _ _ hb')⟩
      by_cases e : q = getQuadrant x0 y0 x y
      · subst e; rw [upd_same]; exact ih _ (h2 _)
      · rw [upd_ne _ _ e]; exact h2 _

end NT

open NT

/-! ### The heap -/

@[simp] theorem put_same (m : Mem V) (a : Nat) (c : Option (Cell V)) : (m.put a c).cell a = c := if_pos rfl
theorem put_ne (m : Mem V) {a b : Nat} (c : Option (Cell V)) (h : b ≠ a) : (m.put a c).cell b = m.cell b := if_neg h
@[simp] theorem put_next (m : Mem V) (a : Nat) (c : Option (Cell V)) : (m.put a c).next = m.next := rfl

theorem get_eq {m : Mem V} {a : Nat} {c : Cell V} (h : m.cell a = some c) : m.get a = .ok c := by
  simp [Mem.get, h]

theorem upd_eq {m : Mem V} {a : Nat} {c : Cell V} (f : Cell V → Cell V) (h : m.cell a = some c) :
    m.upd a f = .ok (m.put a (some (f c))) := by
  simp [Mem.upd, get_eq h]

theorem addRef_eq {m : Mem V} {a : Nat} {c : Cell V} (h : m.cell a = some c) :
    addRef (some a) m = .ok (m.put a (some { c with rc := c.rc + 1 })) := upd_eq _ h

@[simp] theorem addRef_none (m : Mem V) : addRef none m = .ok m := rfl

@[simp] theorem release_none (m : Mem V) : release none m = .ok m := by
  simp [release, releaseL]

theorem release_dec {m : Mem V} {a : Nat} {c : Cell V} (h : m.cell a = some c) (hr : c.rc ≠ 1) :
    release (some a) m = .ok (m.put a (some { c with rc := c.rc - 1 })) := by
  simp [release, releaseL, get_eq h, hr]

theorem release_last {m : Mem V} {a : Nat} {c : Cell V} (h : m.cell a = some c) (hr : c.rc = 1)
    (hk : ∀ q, c.kid q = none) (hp : c.par = none) : release (some a) m = .ok (m.put a none) := by
  have h1 := hk .ne; have h2 := hk .nw; have h3 := hk .se; have h4 := hk .sw
  simp only [Cell.kid] at h1 h2 h3 h4
  simp [release, releaseL, get_eq h, hr, h1, h2, h3, h4, hp]

theorem release_last_par {m : Mem V} {a b : Nat} {c cb : Cell V} (h : m.cell a = some c) (hr : c.rc = 1)
    (hk : ∀ q, c.kid q = none) (hp : c.par = some b) (hb : m.cell b = some cb) (hab : b ≠ a) (hrb : cb.rc ≠ 1) :
    release (some a) m = .ok ((m.put a none).put b (some { cb with rc := cb.rc - 1 })) := by
  have h1 := hk .ne; have h2 := hk .nw; have h3 := hk .se; have h4 := hk .sw
  simp only [Cell.kid] at h1 h2 h3 h4
  have hb' : (m.put a none).get b = .ok cb := get_eq (by rw [put_ne _ _ hab]; exact hb)
  simp [release, releaseL, get_eq h, hr, h1, h2, h3, h4, hp, hb', hrb]

theorem kid_setKid (c : Cell V) (q r : Quadrant) (p : Option Nat) : (c.setKid q p).kid r = if r = q then p else c.kid r := by
  cases q <;> cases r <;> simp [Cell.setKid, Cell.kid]

@[simp] theorem setKid_rc (c : Cell V) (q : Quadrant) (p : Option Nat) : (c.setKid q p).rc = c.rc := by cases q <;> rfl
@[simp] theorem setKid_par (c : Cell V) (q : Quadrant) (p : Option Nat) : (c.setKid q p).par = c.par := by cases q <;> rfl
@[simp] theorem setKid_x (c : Cell V) (q : Quadrant) (p : Option Nat) : (c.setKid q p).x = c.x := by cases q <;> rfl
@[simp] theorem setKid_y (c : Cell V) (q : Quadrant) (p : Option Nat) : (c.setKid q p).y = c.y := by cases q <;> rfl
@[simp] theorem setKid_d (c : Cell V) (q : Quadrant) (p : Option Nat) : (c.setKid q p).d = c.d := by cases q <;> rfl
@[simp] theorem kid_rc (c : Cell V) (n : Nat) (q : Quadrant) : ({ c with rc := n } : Cell V).kid q = c.kid q := by cases q <;> rfl
@[simp] theorem kid_par (c : Cell V) (n : Option Nat) (q : Quadrant) : ({ c with par := n } : Cell V).kid q = c.kid q := by cases q <;> rfl
@[simp] theorem kid_d (c : Cell V) (n : V) (q : Quadrant) : ({ c with d := n } : Cell V).kid q = c.kid q := by cases q <;> rfl

/-- The nodes of `t` lie in the heap, linked as `t` says, each owned by the pointer to it and by its children. -/
def Owns (m : Mem V) (par : Option Nat) : NT V → Prop
  | nil => True
  | node a x y d kids => (∃ c, m.cell a = some c ∧ c.x = x ∧ c.y = y ∧ c.d = d ∧ c.rc = 1 + cnt kids ∧ c.par = par ∧
      ∀ q, c.kid q = (kids q).root) ∧ ∀ q, Owns m (some a) (kids q)

theorem Owns.congr {m m' : Mem V} {p : Option Nat} {t : NT V} (h : Owns m p t) (he : ∀ b ∈ t.ids, m'.cell b = m.cell b) :
    Owns m' p t := by
  induction t generalizing p with
  | nil => trivial
  | node a x y d kids ih =>
    obtain ⟨⟨c, hc, hr⟩, hk⟩ := h
    exact ⟨⟨c, (he a (mem_node.2 (.inl rfl))).trans hc, hr⟩, fun q => ih q (hk q) fun b hb => he b (mem_kid hb)⟩

theorem Owns.live {m : Mem V} {p : Option Nat} {t : NT V} (h : Owns m p t) {b : Nat} (hb : b ∈ t.ids) : ∃ c, m.cell b = some c := by
  induction t generalizing p with
  | nil => cases hb
  | node a x y d kids ih =>
    obtain ⟨⟨c, hc, _⟩, hk⟩ := h
    rcases mem_node.1 hb with h | ⟨q, h⟩
    · subst h; exact ⟨c, hc⟩
    · exact ih q (hk q) h

theorem walk_spec {m : Mem V} (x y : Int) {p : Option Nat} {t : NT V} {f a : Nat} (h : Owns m p t) (hr : t.root = some a)
    (hf : t.depth ≤ f) : walk x y f a m = Outcome.ofOption (look x y t) := by
  induction t generalizing p f a with
  | nil => cases hr
  | node b x0 y0 d kids ih =>
    cases hr
    obtain ⟨⟨c, hc, rfl, rfl, rfl, hrc, hpar, hkid⟩, hk⟩ := h
    obtain ⟨f, rfl⟩ : ∃ g, f = g + 1 := ⟨f - 1, by simp only [depth] at hf; omega⟩
    simp only [walk, get_eq hc, obind_ok, look]
    split
    · rfl
    · have hd := depth_kid b c.x c.y c.d kids (getQuadrant c.x c.y x y)
      have hrw := hkid (getQuadrant c.x c.y x y)
      rcases hroot : (kids (getQuadrant c.x c.y x y)).root with _ | e
      · have hn : kids (getQuadrant c.x c.y x y) = nil := by
          cases hkn : kids (getQuadrant c.x c.y x y) with
          | nil => rfl
          | node => rw [hkn] at hroot; cases hroot
        rw [hroot] at hrw
        simp [hrw, hn, look]
      · rw [hroot] at hrw
        simp only [hrw]
        rw [ih _ (hk _) hroot (by omega)]
        cases hl : look x y (kids (getQuadrant c.x c.y x y)) with
        | none => rw [look_none] at hl; rw [hl] at hroot; cases hroot
        | some r => rfl

/-- The cell the walk ends at; where the quadrant is empty. -/
theorem look_cell {m : Mem V} {x y : Int} {p : Option Nat} {t : NT V} {a : Nat} {q : Quadrant} (h : Owns m p t)
    (hl : look x y t = some (a, some q)) : ∃ c, m.cell a = some c ∧ c.kid q = none := by
  induction t generalizing p with
  | nil => cases hl
  | node b x0 y0 d kids ih =>
    obtain ⟨⟨c, hc, rfl, rfl, rfl, hrc, hpar, hkid⟩, hk⟩ := h
    simp only [look] at hl
    split at hl
    · cases hl
    · split at hl
      · next hn =>
        cases hl
        rw [look_none] at hn
        refine ⟨c, hc, ?_⟩
        rw [hkid, hn]; rfl
      · next r hr => cases hl; exact ih _ (hk _) hr

/-- A new node is linked below the node the walk ended at. -/
theorem ins_new {m m' : Mem V} {x y : Int} {d : V} {p : Option Nat} {t : NT V} {a n : Nat} {q : Quadrant} {c : Cell V}
    (h : Owns m p t) (hd : t.Distinct) (hn : n ∉ t.ids) (hl : look x y t = some (a, some q)) (hc : m.cell a = some c)
    (ha : m'.cell a = some ({ c with rc := c.rc + 1 }.setKid q (some n)))
    (hnew : ∃ e, m'.cell n = some e ∧ e.x = x ∧ e.y = y ∧ e.d = d ∧ e.rc = 1 ∧ e.par = some a ∧ ∀ r, e.kid r = none)
    (hoth : ∀ b, b ≠ a → b ≠ n → m'.cell b = m.cell b) : Owns m' p (ins n x y d t) := by
  induction t generalizing p with
  | nil => cases hl
  | node b x0 y0 d0 kids ih =>
    obtain ⟨hd1, hd2, hd3⟩ := hd
    obtain ⟨⟨cb, hcb, rfl, rfl, rfl, hrc, hpar, hkid⟩, hk⟩ := h
    have hnb : b ≠ n := fun e => hn (mem_node.2 (.inl e.symm))
    have hnk : ∀ q, n ∉ (kids q).ids := fun q hq => hn (mem_kid hq)
    simp only [look] at hl
    simp only [ins]
    split at hl
    · cases hl
    · rename_i hne
      rw [if_neg hne]
      generalize hq0 : getQuadrant cb.x cb.y x y = q0 at hl ⊢
      split at hl
      · next hln =>
        cases hl
        rw [look_none] at hln
        rw [hc] at hcb; cases hcb
        obtain ⟨e, he, hx, hy, hdd, her, hep, hek⟩ := hnew
        have hcnt := cnt_upd kids q (ins n x y d (kids q))
        rw [hln] at hcnt
        simp only [ins, occ] at hcnt
        refine ⟨⟨_, ha, by simp, by simp, by simp, ?_, by simpa using hpar, fun r => ?_⟩, fun r => ?_⟩
        · simp only [setKid_rc, hrc, hln, ins]
          omega
        · rw [kid_setKid]
          by_cases hr : r = q
          · subst hr; rw [if_pos rfl, upd_same, hln]; rfl
          · rw [if_neg hr, upd_ne _ _ hr, kid_rc]; exact hkid r
        · by_cases hr : r = q
          · subst hr
            rw [upd_same, hln]
            exact ⟨⟨e, he, hx, hy, hdd, her, hep, fun r => hek r⟩, fun _ => trivial⟩
          · rw [upd_ne _ _ hr]
            exact (hk r).congr fun b' hb' => hoth b' (fun e => hd1 r (e ▸ hb')) (fun e => hnk r (e ▸ hb'))
      · next r hr =>
        cases hl
        have hmem : a ∈ (kids q0).ids := look_mem hr
        have hba : b ≠ a := fun e => hd1 q0 (e ▸ hmem)
        have hnn : kids q0 ≠ nil := fun e => by rw [e] at hr; cases hr
        have hroot := ins_root n x y d hnn
        have hcnt := cnt_upd kids q0 (ins n x y d (kids q0))
        have hocc := occ_root hroot
        refine ⟨⟨cb, (hoth b hba hnb).trans hcb, rfl, rfl, rfl, by omega, hpar, fun r => ?_⟩, fun r => ?_⟩
        · by_cases hr : r = q0
          · subst hr; rw [upd_same, hroot]; exact hkid _
          · rw [upd_ne _ _ hr]; exact hkid _
        · by_cases hr' : r = q0
          · subst hr'
            rw [upd_same]
            exact ih _ (hk _) (hd2 _) (hnk _) hr
          · rw [upd_ne _ _ hr']
            exact (hk r).congr fun b' hb' => hoth b' (fun e => hd3 r q0 hr' b' hb' (e ▸ hmem)) (fun e => hnk r (e ▸ hb'))

/-- The data of the node found is replaced. -/
theorem ins_found {m m' : Mem V} {x y : Int} {d : V} {p : Option Nat} {t : NT V} {a n : Nat} {c : Cell V}
    (h : Owns m p t) (hd : t.Distinct) (hl : look x y t = some (a, none)) (hc : m.cell a = some c)
    (ha : m'.cell a = some { c with d := d }) (hoth : ∀ b, b ≠ a → m'.cell b = m.cell b) :
    Owns m' p (ins n x y d t) ∧ (∀ b, b ∈ (ins n x y d t).ids ↔ b ∈ t.ids) := by
  induction t generalizing p with
  | nil => cases hl
  | node b x0 y0 d0 kids ih =>
    obtain ⟨hd1, hd2, hd3⟩ := hd
    obtain ⟨⟨cb, hcb, rfl, rfl, rfl, hrc, hpar, hkid⟩, hk⟩ := h
    simp only [look] at hl
    simp only [ins]
    split at hl
    · rename_i he
      cases hl
      rw [if_pos he]
      rw [hc] at hcb; cases hcb
      refine ⟨⟨⟨_, ha, rfl, rfl, rfl, hrc, hpar, fun r => by rw [kid_d]; exact hkid r⟩, fun r => ?_⟩, fun b => ?_⟩
      · exact (hk r).congr fun b' hb' => hoth b' (fun e => hd1 r (e ▸ hb'))
      · rw [mem_node, mem_node]
    · rename_i hne
      rw [if_neg hne]
      generalize hq0 : getQuadrant cb.x cb.y x y = q0 at hl ⊢
      split at hl
      · cases hl
      · next r hr =>
        cases hl
        have hmem : a ∈ (kids q0).ids := look_mem hr
        have hba : b ≠ a := fun e => hd1 q0 (e ▸ hmem)
        have hnn : kids q0 ≠ nil := fun e => by rw [e] at hr; cases hr
        have hroot := ins_root n x y d hnn
        have hcnt := cnt_upd kids q0 (ins n x y d (kids q0))
        have hocc := occ_root hroot
        obtain ⟨i1, i2⟩ := ih _ (hk _) (hd2 _) hr
        refine ⟨⟨⟨cb, (hoth b hba).trans hcb, rfl, rfl, rfl, by omega, hpar, fun r => ?_⟩, fun r => ?_⟩, fun b' => ?_⟩
        · by_cases hr : r = q0
          · subst hr; rw [upd_same, hroot]; exact hkid _
          · rw [upd_ne _ _ hr]; exact hkid _
        · by_cases hr' : r = q0
          · subst hr'
            rw [upd_same]
            exact i1
          · rw [upd_ne _ _ hr']
            exact (hk r).congr fun b' hb' => hoth b' (fun e => hd3 r q0 hr' b' hb' (e ▸ hmem))
        · rw [mem_node, mem_node]
          refine or_congr Iff.rfl (exists_congr fun r => ?_)
          by_cases hr' : r = q0
          · subst hr'; rw [upd_same]; exact i2 _
          · rw [upd_ne _ _ hr']

end Mdds.Quad
