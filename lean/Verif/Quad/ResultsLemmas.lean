import Verif.Quad.HeapWorld
import Verif.Quad.Results
import Verif.Quad.Lemmas
/-! Search results and node access: what they read. -/
namespace Mdds.Quad

variable {V : Type}
open AT

/-- The nodes and points a region search reports. -/
def AT.hits (x1 y1 x2 y2 : Int) : AT V → List (Nat × Pt V)
  | nil => []
  | node a x y d _ kids =>
    match searchSpace x y x1 y1 x2 y2 with
    | .center => (a, ⟨x, y, d⟩) :: (((kids .ne).hits x1 y1 x2 y2 ++ (kids .nw).hits x1 y1 x2 y2) ++
        ((kids .se).hits x1 y1 x2 y2 ++ (kids .sw).hits x1 y1 x2 y2))
    | .east => (kids .nw).hits x1 y1 x2 y2 ++ (kids .sw).hits x1 y1 x2 y2
    | .north => (kids .se).hits x1 y1 x2 y2 ++ (kids .sw).hits x1 y1 x2 y2
    | .northeast => (kids .sw).hits x1 y1 x2 y2
    | .northwest => (kids .se).hits x1 y1 x2 y2
    | .south => (kids .ne).hits x1 y1 x2 y2 ++ (kids .nw).hits x1 y1 x2 y2
    | .southeast => (kids .nw).hits x1 y1 x2 y2
    | .southwest => (kids .ne).hits x1 y1 x2 y2
    | .west => (kids .ne).hits x1 y1 x2 y2 ++ (kids .se).hits x1 y1 x2 y2

theorem hits_points (x1 y1 x2 y2 : Int) (t : AT V) : (t.hits x1 y1 x2 y2).map (·.2) = searchRegion x1 y1 x2 y2 t.tree := by
  induction t with
  | nil => rfl
  | node a x y d ok kids ih =>
    simp only [hits, AT.tree, mk, searchRegion]
    cases searchSpace x y x1 y1 x2 y2 <;> simp [ih]

theorem searchH_any {I : Nat → Prop} {m : Mem V} {t : AT V} {f : Nat} (x1 y1 x2 y2 : Int) (h : Sh I m t) (hf : t.depth ≤ f) :
    searchH x1 y1 x2 y2 f t.root m = .ok ((t.hits x1 y1 x2 y2).map (·.1)) := by
  induction t generalizing f with
  | nil => cases f <;> rfl
  | node a x y d ok kids ih =>
    obtain ⟨⟨c, hc, rfl, rfl, rfl, hkid⟩, hk⟩ := h
    obtain ⟨f, rfl⟩ : ∃ g, f = g + 1 := ⟨f - 1, by simp only [depth] at hf; omega⟩
    have hi : ∀ q, searchH x1 y1 x2 y2 f (c.kid q) m = .ok (((kids q).hits x1 y1 x2 y2).map (·.1)) := fun q => by
      rw [hkid q]
      exact ih q (hk q).1 (by have := depth_kid a c.x c.y c.d ok kids q; omega)
    simp only [AT.root, searchH, get_eq hc, obind_ok, hi, hits]
    cases searchSpace c.x c.y x1 y1 x2 y2 <;> simp

theorem hits_has {x1 y1 x2 y2 : Int} {t : AT V} {a : Nat} {p : Pt V} (h : (a, p) ∈ t.hits x1 y1 x2 y2) : Has a p.x p.y t := by
  induction t with
  | nil => cases h
  | node a0 x y d ok kids ih =>
    have hk : ∀ q, (a, p) ∈ (kids q).hits x1 y1 x2 y2 → Has a p.x p.y (node a0 x y d ok kids) := fun q hq => .inr ⟨q, ih q hq⟩
    simp only [hits] at h
    split at h <;> (try simp only [List.mem_cons, List.mem_append, Prod.mk.injEq] at h)
    · rcases h with ⟨rfl, rfl⟩ | (h | h) | (h | h)
      · exact .inl ⟨rfl, rfl, rfl⟩
      all_goals exact hk _ h
    all_goals first
      | exact hk _ h
      | (rcases h with h | h <;> exact hk _ h)

theorem hits_data {x1 y1 x2 y2 : Int} {t : AT V} {ap : Nat × Pt V} (h : ap ∈ t.hits x1 y1 x2 y2) : ap.2 ∈ allData t.tree := by
  induction t with
  | nil => cases h
  | node a0 x y d ok kids ih =>
    have h1 := ih .ne; have h2 := ih .nw; have h3 := ih .se; have h4 := ih .sw
    simp only [hits] at h
    simp only [AT.tree, mk, mem_node]
    split at h <;> (try simp only [List.mem_cons, List.mem_append] at h)
    · rcases h with rfl | (h | h) | (h | h)
      · exact .inl rfl
      all_goals tauto
    all_goals tauto

theorem has_cell {I : Nat → Prop} {m : Mem V} {t : AT V} {a : Nat} {x y : Int} (h : Sh I m t) (ha : Has a x y t) :
    ∃ c, m.cell a = some c ∧ c.x = x ∧ c.y = y ∧ (⟨x, y, c.d⟩ : Pt V) ∈ allData t.tree := by
  induction t with
  | nil => exact ha.elim
  | node a0 x0 y0 d ok kids ih =>
    obtain ⟨⟨c, hc, e1, e2, e3, hkid⟩, hk⟩ := h
    rcases ha with ⟨rfl, rfl, rfl⟩ | ⟨q, hq⟩
    · exact ⟨c, hc, e1, e2, by subst e3; exact mem_node.2 (.inl rfl)⟩
    · obtain ⟨c, h1, h2, h3, h4⟩ := ih q (hk q).1 hq
      refine ⟨c, h1, h2, h3, mem_node.2 (.inr ?_)⟩
      cases q
      · exact .inl h4
      · exact .inr (.inl h4)
      · exact .inr (.inr (.inl h4))
      · exact .inr (.inr (.inr h4))

/-! ### The loops -/

/-- Reading the nodes gives these points. -/
def Reads (m : Mem V) (ns : List Nat) (ps : List (Pt V)) : Prop :=
  ns.length = ps.length ∧ ∀ (i a : Nat) (p : Pt V), ns[i]? = some a → ps[i]? = some p → ∃ c, m.cell a = some c ∧ p = ⟨c.x, c.y, c.d⟩

theorem update_eq {m : Mem V} {k : Nat} {ns : List Nat} {ps : List (Pt V)} (h : Reads m ns ps) {i : Nat} {p : Pt V} (hp : ps[i]? = some p) (v : Pt V) :
    FoundIt.update ⟨⟨k, ns⟩, i, v, false⟩ m = .ok ⟨⟨k, ns⟩, i, p, false⟩ := by
  have hi : i < ns.length := by rw [h.1]; exact (List.getElem?_eq_some_iff.1 hp).1
  obtain ⟨c, hc, e⟩ := h.2 i ns[i] p (List.getElem?_eq_getElem hi) hp
  simp only [FoundIt.update, List.getElem?_eq_getElem hi, Outcome.ofOption, obind_ok, get_eq hc, e]

theorem forward_eq {m : Mem V} {k : Nat} {ns : List Nat} {ps : List (Pt V)} (h : Reads m ns ps) (d0 : V) {last : Pt V} (hlast : ps[ps.length - 1]? = some last) :
    ∀ (f i : Nat) (p : Pt V), ps[i]? = some p → ps.length < f + i →
      forward m f ⟨⟨k, ns⟩, i, p, false⟩ (Found.fin ⟨k, ns⟩ d0) = .ok (ps.drop i, ⟨⟨k, ns⟩, ns.length - 1, last, true⟩) := by
  intro f
  induction f with
  | zero =>
    intro i p hp hf
    have := (List.getElem?_eq_some_iff.1 hp).1
    omega
  | succ f ih =>
    intro i p hp hf
    obtain ⟨hi, he⟩ := List.getElem?_eq_some_iff.1 hp
    have hne : ns ≠ [] := fun e => by have := h.1; rw [e] at this; simp at this; omega
    simp only [forward, FoundIt.eq, Found.fin, hne, FoundIt.next, FoundIt.deref]
    rw [if_neg (by simp), if_neg (by simp)]
    by_cases hl : i + 1 = ns.length
    · rw [if_pos hl, obind_ok]
      have hil : i = ps.length - 1 := by have := h.1; omega
      cases f with
      | zero => have := h.1; omega
      | succ f =>
        simp only [forward, FoundIt.eq]
        rw [if_pos (by simp [hne]; omega), obind_ok]
        subst hil
        rw [hlast] at hp
        cases hp
        rw [List.drop_eq_getElem_cons hi, he, List.drop_eq_nil_of_le (by omega), h.1]
    · rw [if_neg hl]
      have hi' : i + 1 < ps.length := by have := h.1; omega
      rw [update_eq h (List.getElem?_eq_getElem hi') p, obind_ok]
      have := ih (i + 1) _ (List.getElem?_eq_getElem hi') (by omega)
      simp only [Found.fin] at this
      rw [this, obind_ok, List.drop_eq_getElem_cons hi, he]

theorem backward_eq {m : Mem V} {k : Nat} {ns : List Nat} {ps : List (Pt V)} (h : Reads m ns ps) (v0 : Pt V) :
    ∀ (f i : Nat) (v : Pt V), i < ps.length → i < f →
      backward m f ⟨⟨k, ns⟩, i, v, false⟩ ⟨⟨k, ns⟩, 0, v0, false⟩ = .ok (ps.take i).reverse := by
  intro f
  induction f with
  | zero => intro i v _ hf; omega
  | succ f ih =>
    intro i v hi hf
    have hne : ns ≠ [] := fun e => by have := h.1; rw [e] at this; simp at this; omega
    simp only [backward, FoundIt.eq, hne, FoundIt.prev]
    cases i with
    | zero => rw [if_pos (by simp [hne])]; rfl
    | succ i =>
      rw [if_neg (by simp)]
      simp only [Bool.false_eq_true, if_false]
      rw [update_eq h (List.getElem?_eq_getElem (by omega : i < ps.length)) v, obind_ok, ih i _ (by omega) (by omega), obind_ok]
      rw [List.take_succ_eq_append_getElem (by omega : i < ps.length), List.reverse_append]
      rfl

theorem loops {m : Mem V} {ns : List Nat} {ps : List (Pt V)} (h : Reads m ns ps) (k : Nat) (d0 : V) :
    ∃ it, Found.loop ⟨k, ns⟩ d0 m = .ok (ps, it) ∧ it.eq (Found.fin ⟨k, ns⟩ d0) = true ∧ Found.loopBack ⟨k, ns⟩ d0 it m = .ok ps.reverse ∧
      Found.loopBack ⟨k, ns⟩ d0 (Found.fin ⟨k, ns⟩ d0) m = .ok (match ps.reverse with | [] => [] | _ :: r => ⟨0, 0, d0⟩ :: r) := by
  by_cases hne : ns = []
  · subst hne
    have : ps = [] := List.length_eq_zero_iff.1 (by have := h.1; simpa using this.symm)
    subst this
    exact ⟨⟨⟨k, []⟩, 0, ⟨0, 0, d0⟩, true⟩, rfl, rfl, rfl, rfl⟩
  · have hpos : 0 < ps.length := by rw [← h.1]; exact List.length_pos_iff.2 hne
    have hb : Found.begin ⟨k, ns⟩ d0 m = .ok ⟨⟨k, ns⟩, 0, ps[0], false⟩ := by
      simp only [Found.begin, if_neg hne]
      exact update_eq h (List.getElem?_eq_getElem hpos) _
    have hlast := List.getElem?_eq_getElem (by omega : ps.length - 1 < ps.length)
    have hback : ∀ v, Found.loopBack ⟨k, ns⟩ d0 ⟨⟨k, ns⟩, ns.length - 1, v, true⟩ m = .ok (v :: (ps.take (ps.length - 1)).reverse) := by
      intro v
      simp only [Found.loopBack, hb, obind_ok, backward, FoundIt.eq]
      rw [if_neg (by simp [hne])]
      simp only [FoundIt.prev, if_true, obind_ok]
      rw [backward_eq h _ _ _ _ (by rw [h.1]; omega) (by rw [h.1]; omega), obind_ok, h.1]
      rfl
    have hsplit : ps.reverse = ps[ps.length - 1] :: (ps.take (ps.length - 1)).reverse := by
      have := List.take_succ_eq_append_getElem (by omega : ps.length - 1 < ps.length)
      rw [Nat.sub_add_cancel hpos, List.take_length] at this
      conv_lhs => rw [this, List.reverse_append]
      rfl
    refine ⟨⟨⟨k, ns⟩, ns.length - 1, ps[ps.length - 1], true⟩, ?_, ?_, ?_, ?_⟩
    · simp only [Found.loop, hb, obind_ok]
      rw [forward_eq h d0 hlast _ 0 _ (List.getElem?_eq_getElem hpos) (by rw [h.1]; omega), List.drop_zero]
    · simp [FoundIt.eq, Found.fin, hne]
    · rw [hback, ← hsplit]
    · rw [hsplit]
      exact hback _

/-! ### Node access -/

/-- What is seen of a tree of the model. -/
def seen : Tree V → Seen V
  | .nil => .nothing
  | .node x y d _ ne nw se sw => .node ⟨x, y, d⟩ (seen ne) (seen nw) (seen se) (seen sw)

/-- The points seen. -/
def Seen.points : Seen V → List (Pt V)
  | .nothing => []
  | .node p ne nw se sw => p :: (ne.points ++ nw.points ++ se.points ++ sw.points)

/-- What is seen in a direction lies there: north is less than, south and east are not less than. -/
def Seen.Ordered : Seen V → Prop
  | .nothing => True
  | .node p ne nw se sw => (∀ r ∈ ne.points, p.x ≤ r.x ∧ r.y < p.y) ∧ (∀ r ∈ nw.points, r.x < p.x ∧ r.y < p.y) ∧
      (∀ r ∈ se.points, p.x ≤ r.x ∧ p.y ≤ r.y ∧ ¬ (r.x = p.x ∧ r.y = p.y)) ∧ (∀ r ∈ sw.points, r.x < p.x ∧ p.y ≤ r.y) ∧
      ne.Ordered ∧ nw.Ordered ∧ se.Ordered ∧ sw.Ordered

theorem seen_points (t : Tree V) : (seen t).points = allData t := by
  induction t with
  | nil => rfl
  | node x y d ok ne nw se sw i1 i2 i3 i4 => simp only [seen, Seen.points, i1, i2, i3, i4]; rfl

theorem seen_ordered {t : Tree V} (h : WF t) : (seen t).Ordered := by
  induction t with
  | nil => trivial
  | node x y d ok ne nw se sw i1 i2 i3 i4 =>
    obtain ⟨h1, h2, h3, h4, w1, w2, w3, w4⟩ := h
    simp only [seen, Seen.Ordered, seen_points]
    refine ⟨fun r hr => getQuadrant_ne.1 (h1 r hr).1, fun r hr => getQuadrant_nw.1 (h2 r hr).1, fun r hr => ?_, fun r hr => getQuadrant_sw.1 (h4 r hr).1, i1 w1, i2 w2, i3 w3, i4 w4⟩
    have := getQuadrant_se.1 (h3 r hr).1
    exact ⟨this.1, this.2, fun e => (h3 r hr).2 ⟨e.1.symm, e.2.symm⟩⟩

theorem accessH_any {I : Nat → Prop} {m : Mem V} {t : AT V} {f : Nat} (h : Sh I m t) (hf : t.depth ≤ f) : accessH f t.root m = .ok (seen t.tree) := by
  induction t generalizing f with
  | nil => cases f <;> rfl
  | node a x y d ok kids ih =>
    obtain ⟨⟨c, hc, rfl, rfl, rfl, hkid⟩, hk⟩ := h
    obtain ⟨f, rfl⟩ : ∃ g, f = g + 1 := ⟨f - 1, by simp only [depth] at hf; omega⟩
    have hi : ∀ q, accessH f (c.kid q) m = .ok (seen (kids q).tree) := fun q => by
      rw [hkid q]
      exact ih q (hk q).1 (by have := depth_kid a c.x c.y c.d ok kids q; omega)
    have h1 := hi .ne; have h2 := hi .nw; have h3 := hi .se; have h4 := hi .sw
    simp only [Cell.kid] at h1 h2 h3 h4
    simp only [AT.root, accessH, get_eq hc, obind_ok, h1, h2, h3, h4]
    rfl

end Mdds.Quad
