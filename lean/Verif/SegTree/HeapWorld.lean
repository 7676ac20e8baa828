import Verif.SegTree.HeapMark
import Verif.SegTree.HeapSpec

/-!
# Many segment trees in one memory

What memory looks like between calls, and the steps that concern one container.
-/
namespace Mdds.SegTree.Mem

open Mdds.FST.Mem hiding Path

variable {V : Type}

/-- The address belongs to the node pool of the container. -/
def inPool (ob : Obj V) (p : Nat) : Prop := ob.base ≤ p ∧ p < ob.base + ob.size

/-- The tree `t` in memory. -/
structure Tr (W : Nat → Chain) (K : Nat → Int) (nl : Nat → Option Inner) (as : List Nat) (ob : Obj V) (S : Shape) (t : Tree)
    (tags : List (Nat × List Path)) : Prop where
  distinct : S.Distinct
  held : Held nl K S
  leaves : S.leaves = as
  inners : ∀ p ∈ S.inners, inPool ob p
  exact : S.inners.length = ob.size
  root : ob.root = some S.addr
  view : view (chm W nl) S = t
  tags : List.Forall₂ (TagRel S) ob.tagged tags
  marked : ∀ x ∈ ob.tagged, ∀ q ∈ x.2, S.Has q ∧ x.1 ∈ (chm W nl q).list

/-- A container in memory and its value. -/
structure CRel (dv : V) (W : Nat → Chain) (K : Nat → Int) (nl : Nat → Option Inner) (as : List Nat) (ob : Obj V) (st : State V) :
    Prop where
  store : ob.store = st.store
  valid : ob.valid = st.valid
  keys : as.map K = st.leaves
  tree : ∀ t, st.root = some t → ∃ S, Tr W K nl as ob S t st.tagged
  stale : st.root = none → st.tagged = [] → ob.tagged = []
  inv : Inv dv st
  len : st.leaves.length ≠ 1

def SRel (dv : V) (W : Nat → Chain) (K : Nat → Int) (nl : Nat → Option Inner) (as : List Nat) : Option (Obj V) → Slot V → Prop
  | none, .dead => as = []
  | some ob, .moved => ob.store = [] ∧ ob.size = 0 ∧ ob.tagged = [] ∧ ob.valid = true ∧ as = []
  | some ob, .live st => CRel dv W K nl as ob st
  | _, _ => False

/-- Search results in memory: they refer to nodes of the container with non-empty chains. -/
structure RRel (W : Nat → Chain) (nl : Nat → Option Inner) (as : List Nat) (ob : Obj V) (ps : List Ptr) (is : List Nat) : Prop where
  own : ∀ q ∈ ps, (∀ a, q = .leaf a → a ∈ as) ∧ ∀ p, q = .inner p → inPool ob p
  ne : ∀ q ∈ ps, (chm W nl q).list ≠ []
  flat : is = (ps.map fun q => (chm W nl q).list).flatten
  lt : ∀ i ∈ is, i < ob.store.length

theorem chm_congr {W W' : Nat → Chain} {nl nl' : Nat → Option Inner} {as : List Nat} {ob : Obj V}
    (hW : ∀ a ∈ as, W' a = W a) (hn : ∀ p, inPool ob p → nl' p = nl p) {q : Ptr}
    (h : (∀ a, q = .leaf a → a ∈ as) ∧ ∀ p, q = .inner p → inPool ob p) : chm W' nl' q = chm W nl q := by
  cases q with
  | leaf a => exact hW a (h.1 a rfl)
  | inner p => simp only [chm]; rw [hn p (h.2 p rfl)]

theorem Tr.own {W : Nat → Chain} {K : Nat → Int} {nl : Nat → Option Inner} {as : List Nat} {ob : Obj V} {S : Shape} {t : Tree}
    {tags : List (Nat × List Path)} (h : Tr W K nl as ob S t tags) {q : Ptr} (hq : S.Has q) :
    (∀ a, q = .leaf a → a ∈ as) ∧ ∀ p, q = .inner p → inPool ob p := by
  refine ⟨fun a e => ?_, fun p e => ?_⟩
  · subst e; rw [← h.leaves]; exact hq
  · subst e; exact h.inners p hq

theorem Tr.congr {W W' : Nat → Chain} {K K' : Nat → Int} {nl nl' : Nat → Option Inner} {as : List Nat} {ob : Obj V} {S : Shape}
    {t : Tree} {tags : List (Nat × List Path)} (h : Tr W K nl as ob S t tags)
    (hK : ∀ a ∈ as, K' a = K a) (hW : ∀ a ∈ as, W' a = W a) (hn : ∀ p, inPool ob p → nl' p = nl p) :
    Tr W' K' nl' as ob S t tags := by
  have hc : ∀ q, S.Has q → chm W' nl' q = chm W nl q := fun q hq => chm_congr hW hn (h.own hq)
  refine ⟨h.distinct, h.held.congr (fun p hp => by rw [hn p (h.inners p hp)]) (fun a ha => hK a (h.leaves ▸ ha)), h.leaves,
    h.inners, h.exact, h.root, by rw [view_congr hc]; exact h.view, h.tags, fun x hx q hq => ?_⟩
  have := h.marked x hx q hq
  exact ⟨this.1, by rw [hc q this.1]; exact this.2⟩

theorem SRel.congr {dv : V} {W W' : Nat → Chain} {K K' : Nat → Int} {nl nl' : Nat → Option Inner} {as : List Nat}
    {ob : Option (Obj V)} {s : Slot V} (h : SRel dv W K nl as ob s)
    (hK : ∀ a ∈ as, K' a = K a) (hW : ∀ a ∈ as, W' a = W a) (hn : ∀ x, ob = some x → ∀ p, inPool x p → nl' p = nl p) :
    SRel dv W' K' nl' as ob s := by
  match ob, s, h with
  | none, .dead, h => exact h
  | some ob, .moved, h => exact h
  | some ob, .live st, h =>
    refine ⟨h.store, h.valid, by rw [← h.keys]; exact List.map_congr_left hK, fun t ht => ?_, h.stale, h.inv, h.len⟩
    obtain ⟨S, tr⟩ := h.tree t ht
    exact ⟨S, tr.congr hK hW (hn ob rfl)⟩

theorem RRel.congr {W W' : Nat → Chain} {nl nl' : Nat → Option Inner} {as : List Nat} {ob : Obj V} {ps : List Ptr} {is : List Nat}
    (h : RRel W nl as ob ps is) (hW : ∀ a ∈ as, W' a = W a) (hn : ∀ p, inPool ob p → nl' p = nl p) :
    RRel W' nl' as ob ps is := by
  have hc : ∀ q ∈ ps, chm W' nl' q = chm W nl q := fun q hq => chm_congr hW hn (h.own q hq)
  refine ⟨h.own, fun q hq => by rw [hc q hq]; exact h.ne q hq, ?_, h.lt⟩
  rw [h.flat]
  congr 1
  exact List.map_congr_left fun q hq => by rw [hc q hq]

/-- Everything outside container `o` is in order: `slot` and `rs` say what the other containers and
their search results are. -/
structure WX (dv : V) (o : Nat) (C : Nat → List Nat) (m : Mem V) (g : Pic Chain) (slot : Nat → Slot V)
    (rs : Nat → Option (Nat × List Nat)) : Prop where
  rel : ∀ p, p ≠ o → SRel dv g.W g.K m.nl (C p) (m.obj p) (slot p)
  alive : ∀ p ob, m.obj p = some ob → ∀ q, inPool ob q → (m.nl q).isSome ∧ q < m.next
  apart : ∀ p p' ob ob', m.obj p = some ob → m.obj p' = some ob' → p ≠ p' → ∀ q, inPool ob q → ¬ inPool ob' q
  only : ∀ q, (m.nl q).isSome → ∃ p ob, m.obj p = some ob ∧ inPool ob q
  res : ∀ x p is, p ≠ o → rs x = some (p, is) → ∃ ob ps, m.res x = some ⟨p, ps⟩ ∧ m.obj p = some ob ∧ RRel g.W m.nl (C p) ob ps is

/-- Everything is in order. -/
structure WInv (dv : V) (m : Mem V) (g : Pic Chain) (C : Nat → List Nat) (slot : Nat → Slot V)
    (rs : Nat → Option (Nat × List Nat)) : Prop where
  wld : Wld g m.lh C
  rel : ∀ p, SRel dv g.W g.K m.nl (C p) (m.obj p) (slot p)
  alive : ∀ p ob, m.obj p = some ob → ∀ q, inPool ob q → (m.nl q).isSome ∧ q < m.next
  apart : ∀ p p' ob ob', m.obj p = some ob → m.obj p' = some ob' → p ≠ p' → ∀ q, inPool ob q → ¬ inPool ob' q
  only : ∀ q, (m.nl q).isSome → ∃ p ob, m.obj p = some ob ∧ inPool ob q
  res : ∀ x p is, rs x = some (p, is) → ∃ ob ps, m.res x = some ⟨p, ps⟩ ∧ m.obj p = some ob ∧ RRel g.W m.nl (C p) ob ps is

variable {dv : V} {o : Nat} {C : Nat → List Nat} {m : Mem V} {g : Pic Chain} {slot : Nat → Slot V} {rs : Nat → Option (Nat × List Nat)}

theorem WInv.wx (h : WInv dv m g C slot rs) (o : Nat) : WX dv o C m g slot rs :=
  ⟨fun p _ => h.rel p, h.alive, h.apart, h.only, fun x p is _ e => h.res x p is e⟩

theorem inval_some {o x p : Nat} {is : List Nat} {rs : Nat → Option (Nat × List Nat)} (h : inval o rs x = some (p, is)) :
    rs x = some (p, is) ∧ p ≠ o := by
  simp only [inval, Option.filter_eq_some_iff, decide_eq_true_eq] at h
  exact h

theorem inval_inval (o : Nat) (rs : Nat → Option (Nat × List Nat)) : inval o (inval o rs) = inval o rs := by
  funext x
  simp only [inval]
  cases rs x with
  | none => rfl
  | some r => by_cases h : r.1 = o <;> simp [h]

/-- Container `o` is in order again. -/
theorem WX.close (h : WX dv o C m g slot rs) {as : List Nat} (w : Wld g m.lh (upd C o as)) {s : Slot V}
    (hs : SRel dv g.W g.K m.nl as (m.obj o) s) : WInv dv m g (upd C o as) (upd slot o s) (inval o rs) := by
  refine ⟨w, fun p => ?_, h.alive, h.apart, h.only, fun x p is e => ?_⟩
  · by_cases e : p = o
    · subst e; rw [upd_same, upd_same]; exact hs
    · rw [upd_ne _ _ e, upd_ne _ _ e]; exact h.rel p e
  · obtain ⟨e, hp⟩ := inval_some e
    rw [upd_ne _ _ hp]
    exact h.res x p is hp e

namespace WX

theorem lh (h : WX dv o C m g slot rs) (hp : Heap Chain) : WX dv o C { m with lh := hp } g slot rs :=
  ⟨h.rel, h.alive, h.apart, h.only, h.res⟩

theorem pic (h : WX dv o C m g slot rs) {g' : Pic Chain} (hf : ∀ p, p ≠ o → ∀ a ∈ C p, g'.K a = g.K a ∧ g'.W a = g.W a) :
    WX dv o C m g' slot rs := by
  refine ⟨fun p hp => (h.rel p hp).congr (fun a ha => (hf p hp a ha).1) (fun a ha => (hf p hp a ha).2) (fun _ _ _ _ => rfl),
    h.alive, h.apart, h.only, fun x p is hp e => ?_⟩
  obtain ⟨ob, ps, e1, e2, r⟩ := h.res x p is hp e
  exact ⟨ob, ps, e1, e2, r.congr (fun a ha => (hf p hp a ha).2) (fun _ _ => rfl)⟩

/-- New members of container `o`, with the same pool or none. -/
theorem setObj (h : WX dv o C m g slot rs) {ob : Option (Obj V)}
    (h1 : ∀ x, ob = some x → ∀ q, inPool x q → ∃ y, m.obj o = some y ∧ inPool y q)
    (h2 : ∀ y, m.obj o = some y → ∀ q, inPool y q → ∃ x, ob = some x ∧ inPool x q) :
    WX dv o C { m with obj := upd m.obj o ob } g slot rs := by
  refine ⟨fun p hp => ?_, fun p x hx q hq => ?_, fun p p' x x' hx hx' hpp q hq hq' => ?_, fun q hq => ?_, fun x p is hp e => ?_⟩
  · show SRel _ _ _ _ _ (upd m.obj o ob p) _
    rw [upd_ne _ _ hp]; exact h.rel p hp
  · by_cases e : p = o
    · subst e
      have hx : ob = some x := by simpa using hx
      obtain ⟨y, e1, e2⟩ := h1 x hx q hq
      exact h.alive _ y e1 q e2
    · have hx : m.obj p = some x := by simpa [upd, e] using hx
      exact h.alive p x hx q hq
  · have key : ∀ p x, upd m.obj o ob p = some x → inPool x q → ∃ y, m.obj p = some y ∧ inPool y q := by
      intro p x hx hq
      by_cases e : p = o
      · subst e
        exact h1 x (by simpa using hx) q hq
      · exact ⟨x, by simpa [upd, e] using hx, hq⟩
    obtain ⟨y, e1, e2⟩ := key p x hx hq
    obtain ⟨y', e1', e2'⟩ := key p' x' hx' hq'
    exact h.apart p p' y y' e1 e1' hpp q e2 e2'
  · obtain ⟨p, y, e1, e2⟩ := h.only q hq
    by_cases e : p = o
    · subst e
      obtain ⟨x, f1, f2⟩ := h2 y e1 q e2
      exact ⟨p, x, by simpa using f1, f2⟩
    · exact ⟨p, y, by simpa [upd, e] using e1, e2⟩
  · obtain ⟨y, ps, e1, e2, r⟩ := h.res x p is hp e
    exact ⟨y, ps, e1, by simpa [upd, hp] using e2, r⟩

/-- Non-leaf nodes of container `o` have changed. -/
theorem nodes (h : WX dv o C m g slot rs) {nl' : Nat → Option Inner} {ob : Obj V} (ho : m.obj o = some ob)
    (h1 : ∀ q, ¬ inPool ob q → nl' q = m.nl q) (h2 : ∀ q, inPool ob q → (nl' q).isSome) :
    WX dv o C { m with nl := nl' } g slot rs := by
  have hoff : ∀ p x, p ≠ o → m.obj p = some x → ∀ q, inPool x q → nl' q = m.nl q := fun p x hp hx q hq =>
    h1 q (h.apart p o x ob hx ho hp q hq)
  refine ⟨fun p hp => ?_, fun p x hx q hq => ?_, h.apart, fun q hq => ?_, fun x p is hp e => ?_⟩
  · exact (h.rel p hp).congr (fun _ _ => rfl) (fun _ _ => rfl) (fun x hx q hq => hoff p x hp hx q hq)
  · refine ⟨?_, (h.alive p x hx q hq).2⟩
    show (nl' q).isSome
    by_cases e : inPool ob q
    · exact h2 q e
    · rw [h1 q e]; exact (h.alive p x hx q hq).1
  · by_cases e : inPool ob q
    · exact ⟨o, ob, ho, e⟩
    · exact h.only q (by rw [← h1 q e]; exact hq)
  · obtain ⟨y, ps, e1, e2, r⟩ := h.res x p is hp e
    exact ⟨y, ps, e1, e2, r.congr (fun _ _ => rfl) (fun q hq => hoff p y hp e2 q hq)⟩

theorem aw_poolClear (h : WX dv o C m g slot rs) {ob : Obj V} (ho : m.obj o = some ob) {Q : Unit → Mem V → Prop}
    (q : ∀ m', WX dv o C m' g slot rs → m'.obj o = some { ob with base := 0, size := 0 } → m'.lh = m.lh → m'.res = m.res → Q () m') :
    aw (poolClear o) Q m := by
  unfold poolClear
  refine aw_bind (aw_getObj ho (aw_bind ⟨(), _, rfl, ?_⟩))
  refine aw_setObj ho (q _ ?_ (by simp) rfl rfl)
  have hoff : ∀ p x, p ≠ o → m.obj p = some x → ∀ q, inPool x q → ¬ (ob.base ≤ q ∧ q < ob.base + ob.size) := fun p x hp hx q hq =>
    h.apart p o x ob hx ho hp q hq
  refine ⟨fun p hp => ?_, fun p x hx q hq => ?_, fun p p' x x' hx hx' hpp q hq hq' => ?_, fun q hq => ?_, fun x p is hp e => ?_⟩
  · show SRel _ _ _ _ _ (upd m.obj o _ p) _
    rw [upd_ne _ _ hp]
    refine (h.rel p hp).congr (fun _ _ => rfl) (fun _ _ => rfl) fun x hx q hq => ?_
    exact if_neg (hoff p x hp hx q hq)
  · by_cases e : p = o
    · subst e
      have hx : x = { ob with base := 0, size := 0 } := by simpa using hx.symm
      subst hx
      simp [inPool] at hq
    · have hx : m.obj p = some x := by simpa [upd, e] using hx
      have := h.alive p x hx q hq
      refine ⟨?_, this.2⟩
      show (if _ then none else m.nl q : Option Inner).isSome
      rw [if_neg (hoff p x e hx q hq)]; exact this.1
  · by_cases e : p = o
    · subst e
      have hx : x = { ob with base := 0, size := 0 } := by simpa using hx.symm
      subst hx
      simp [inPool] at hq
    · by_cases e' : p' = o
      · subst e'
        have hx' : x' = { ob with base := 0, size := 0 } := by simpa using hx'.symm
        subst hx'
        simp [inPool] at hq'
      · exact h.apart p p' x x' (by simpa [upd, e] using hx) (by simpa [upd, e'] using hx') hpp q hq hq'
  · have hq : (if ob.base ≤ q ∧ q < ob.base + ob.size then none else m.nl q : Option Inner).isSome := hq
    by_cases e : ob.base ≤ q ∧ q < ob.base + ob.size
    · rw [if_pos e] at hq; simp at hq
    · rw [if_neg e] at hq
      obtain ⟨p, y, e1, e2⟩ := h.only q hq
      have hp : p ≠ o := fun hp => by
        subst hp
        rw [ho] at e1; cases e1
        exact e e2
      exact ⟨p, y, by simpa [upd, hp] using e1, e2⟩
  · obtain ⟨y, ps, e1, e2, r⟩ := h.res x p is hp e
    refine ⟨y, ps, e1, by simpa [upd, hp] using e2, r.congr (fun _ _ => rfl) fun q hq => ?_⟩
    exact if_neg (hoff p y hp e2 q hq)

theorem aw_poolResize (h : WX dv o C m g slot rs) {ob : Obj V} (ho : m.obj o = some ob) (hs : ob.size = 0) (n : Nat)
    {Q : Unit → Mem V → Prop}
    (post : ∀ m', WX dv o C m' g slot rs → m'.obj o = some { ob with base := m.next, size := n } → m'.lh = m.lh → m'.res = m.res →
      (∀ p, m.next ≤ p → p < m.next + n → m'.nl p = some Inner.new) → Q () m') :
    aw (poolResize o n) Q m := by
  unfold poolResize
  refine aw_bind (aw_getObj ho (aw_bind ⟨m.next, _, rfl, ?_⟩))
  refine aw_setObj ho (post _ ?_ (by simp) rfl rfl (fun p h1 h2 => if_pos ⟨h1, h2⟩))
  have hoff : ∀ p x, m.obj p = some x → ∀ q, inPool x q → ¬ (m.next ≤ q ∧ q < m.next + n) := fun p x hx q hq => by
    have := (h.alive p x hx q hq).2
    omega
  refine ⟨fun p hp => ?_, fun p x hx q hq => ?_, fun p p' x x' hx hx' hpp q hq hq' => ?_, fun q hq => ?_, fun x p is hp e => ?_⟩
  · show SRel _ _ _ _ _ (upd m.obj o _ p) _
    rw [upd_ne _ _ hp]
    refine (h.rel p hp).congr (fun _ _ => rfl) (fun _ _ => rfl) fun x hx q hq => ?_
    exact if_neg (hoff p x hx q hq)
  · by_cases e : p = o
    · subst e
      have hx : x = { ob with base := m.next, size := n } := by simpa using hx.symm
      subst hx
      have hq : m.next ≤ q ∧ q < m.next + n := hq
      refine ⟨?_, hq.2⟩
      show (if _ then some Inner.new else m.nl q : Option Inner).isSome
      rw [if_pos hq]; rfl
    · have hx : m.obj p = some x := by simpa [upd, e] using hx
      have := h.alive p x hx q hq
      refine ⟨?_, show q < m.next + n by omega⟩
      show (if _ then some Inner.new else m.nl q : Option Inner).isSome
      rw [if_neg (hoff p x hx q hq)]; exact this.1
  · by_cases e : p = o
    · subst e
      have hx : x = { ob with base := m.next, size := n } := by simpa using hx.symm
      subst hx
      exact hoff p' x' (by simpa [upd, Ne.symm hpp] using hx') q hq' hq
    · by_cases e' : p' = o
      · subst e'
        have hx' : x' = { ob with base := m.next, size := n } := by simpa using hx'.symm
        subst hx'
        exact hoff p x (by simpa [upd, e] using hx) q hq hq'
      · exact h.apart p p' x x' (by simpa [upd, e] using hx) (by simpa [upd, e'] using hx') hpp q hq hq'
  · have hq : (if m.next ≤ q ∧ q < m.next + n then some Inner.new else m.nl q : Option Inner).isSome := hq
    by_cases e : m.next ≤ q ∧ q < m.next + n
    · exact ⟨o, { ob with base := m.next, size := n }, by simp, e⟩
    · rw [if_neg e] at hq
      obtain ⟨p, y, e1, e2⟩ := h.only q hq
      have hp : p ≠ o := fun hp => by
        subst hp
        rw [ho] at e1; cases e1
        unfold inPool at e2
        omega
      exact ⟨p, y, by simpa [upd, hp] using e1, e2⟩
  · obtain ⟨y, ps, e1, e2, r⟩ := h.res x p is hp e
    refine ⟨y, ps, e1, by simpa [upd, hp] using e2, r.congr (fun _ _ => rfl) fun q hq => ?_⟩
    exact if_neg (hoff p y e2 q hq)

/-- Assignment to members of container `o`, not the pool. -/
theorem aw_setObj (h : WX dv o C m g slot rs) {ob x : Obj V} (ho : m.obj o = some ob) (h1 : x.base = ob.base) (h2 : x.size = ob.size)
    {Q : Unit → Mem V → Prop}
    (q : WX dv o C { m with obj := upd m.obj o (some x) } g slot rs → Q () { m with obj := upd m.obj o (some x) }) :
    aw (Mem.setObj o x) Q m := by
  refine Mem.aw_setObj ho (q (h.setObj (fun y hy p hp => ⟨ob, ho, ?_⟩) fun y hy p hp => ⟨x, rfl, ?_⟩))
  · cases hy; unfold inPool at *; rw [h1, h2] at hp; exact hp
  · rw [ho] at hy; cases hy; unfold inPool at *; rw [h1, h2]; exact hp

/-- The leaves of container `o` have changed. -/
theorem putLeaves (h : WX dv o C m g slot rs) (w : Wld g m.lh C) {g' : Pic Chain} {h' : Heap Chain} {as : List Nat}
    {ls : List (Mdds.FST.Leaf Chain)} (st : St g g' h' o as ls (fun a => ∃ p, p ≠ o ∧ a ∈ C p) []) :
    WX dv o C { m with lh := h' } g' slot rs ∧ Wld g' h' (upd C o as) :=
  ⟨(h.lh h').pic fun p hp a ha => ⟨(st.frame a ⟨p, hp, ha⟩).2.2.1, (st.frame a ⟨p, hp, ha⟩).2.2.2⟩, (w.put st).1⟩

/-- `clear_all_nodes`. -/
theorem aw_clearNodes (h : WX dv o C m g slot rs) (w : Wld g m.lh C) {ob : Obj V} (ho : m.obj o = some ob) (hlen : (C o).length ≠ 1)
    {Q : Unit → Mem V → Prop}
    (q : ∀ m' g', WX dv o C m' g' slot rs → Wld g' m'.lh (upd C o []) →
      m'.obj o = some { ob with base := 0, size := 0, root := none } → m'.res = m.res → Q () m') :
    aw (clearNodes o) Q m := by
  unfold clearNodes
  refine aw_bind (aw_leaves (wp_disc (w.st o) hlen fun g1 h1 d => ?_))
  have hx1 : WX dv o C { m with lh := h1 } g1 slot rs :=
    (h.lh h1).pic fun p hp a ha => ⟨(d.frame a ⟨p, hp, ha⟩).2.2.1, (d.frame a ⟨p, hp, ha⟩).2.2.2⟩
  refine aw_bind (hx1.aw_poolClear ho fun m2 hx2 ho2 e2 er2 => ?_)
  have hs2 : Sat g1 m2.lh := by rw [e2]; exact d.sat
  refine aw_bind (aw_leaves (wp_assign hs2 (l := .root (.left o)) rfl (by simp) fun h3 s3 => ?_))
  refine aw_bind (aw_leaves (wp_assign s3 (l := .root (.right o)) rfl (by simp) fun h4 s4 => ?_))
  simp only [Pic.set] at s4
  obtain ⟨g5, st5⟩ := d.done (w.env o) s4
  obtain ⟨hx5, w5⟩ := h.putLeaves w st5
  have hx : WX dv o C { m2 with lh := h4 } g5 slot rs := (hx2.lh h4).pic fun p hp a ha => by
    have f1 := d.frame a ⟨p, hp, ha⟩
    have f2 := st5.frame a ⟨p, hp, ha⟩
    exact ⟨by rw [f2.2.2.1, f1.2.2.1], by rw [f2.2.2.2, f1.2.2.2]⟩
  refine aw_bind (aw_getObj ho2 ?_)
  exact hx.aw_setObj (x := { ob with base := 0, size := 0, root := none }) ho2 rfl rfl fun hx' => q _ g5 hx' w5 (by simp) er2

end WX

end Mdds.SegTree.Mem
