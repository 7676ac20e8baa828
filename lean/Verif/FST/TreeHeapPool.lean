import Verif.FST.TreeHeapShape

/-!
# The pools of many containers
-/
namespace Mdds.FST.Pool

open Mdds.FST.Mem (upd upd_same upd_ne slot off fromTo exch origin Call Out Objs listStep)
open Mdds.SegTree.Mem (aw aw_bind aw_pure aw_ret aw_getObj aw_setObj aw_newObj aw_endObj getObj setObj newObj endObj Inner)

variable {V : Type} {m : Mem V}

/-- The non-leaf nodes that are alive are those in pools; pools do not overlap. -/
structure Pools (m : Mem V) : Prop where
  alive : ∀ p t, m.obj p = some t → ∀ q, inPool t q → (m.nl q).isSome ∧ q < m.next
  apart : ∀ p p' t t', m.obj p = some t → m.obj p' = some t' → p ≠ p' → ∀ q, inPool t q → ¬ inPool t' q
  only : ∀ q, (m.nl q).isSome → ∃ p t, m.obj p = some t ∧ inPool t q

/-- Pools have changed hands; some have been cleared. -/
theorem Pools.change (h : Pools m) {m' : Mem V} (f : Nat → Option Nat) (hnext : m'.next = m.next)
    (h1 : ∀ p t', m'.obj p = some t' → ∀ q, inPool t' q → m'.nl q = m.nl q ∧ ∃ r t, f p = some r ∧ m.obj r = some t ∧ inPool t q)
    (hinj : ∀ p p' r, f p = some r → f p' = some r → p = p')
    (h3 : ∀ q, (m'.nl q).isSome → (m.nl q).isSome ∧ ∀ r t, m.obj r = some t → inPool t q → ∃ p t', m'.obj p = some t' ∧ inPool t' q) :
    Pools m' := by
  refine ⟨fun p t' hp q hq => ?_, fun p p' t t' hp hp' hne q hq hq' => ?_, fun q hq => ?_⟩
  · obtain ⟨e, r, t, -, hr, hrq⟩ := h1 p t' hp q hq
    rw [e, hnext]
    exact h.alive r t hr q hrq
  · obtain ⟨-, r, t1, f1, hr, hrq⟩ := h1 p t hp q hq
    obtain ⟨-, r', t1', f1', hr', hrq'⟩ := h1 p' t' hp' q hq'
    by_cases e : r = r'
    · subst e; exact hne (hinj _ _ _ f1 f1')
    · exact h.apart r r' t1 t1' hr hr' e q hrq hrq'
  · obtain ⟨hq0, h4⟩ := h3 q hq
    obtain ⟨r, t, hr, hrq⟩ := h.only q hq0
    exact h4 r t hr hrq

/-- After a piece of work container `p` has the tree that container `f p` had, or a tree that must
not be used. -/
structure Pst (f : Nat → Option Nat) (m m' : Mem V) : Prop where
  pools : Pools m'
  lh : m'.lh = m.lh
  res : m'.res = m.res
  keep : ∀ p q, f p = some q → m'.obj p = m.obj q ∧ ∀ t, m.obj q = some t → ∀ s, inPool t s → m'.nl s = m.nl s
  drop : ∀ p t, f p = none → m'.obj p = some t → t.valid = false

theorem Pst.comp {f f' : Nat → Option Nat} {m m' m'' : Mem V} (h : Pst f m m') (h' : Pst f' m' m'') :
    Pst (fun p => (f' p).bind f) m m'' := by
  refine ⟨h'.pools, h'.lh.trans h.lh, h'.res.trans h.res, fun p q e => ?_, fun p t e ht => ?_⟩
  · obtain ⟨r, e1, e2⟩ := Option.bind_eq_some_iff.1 e
    have k1 := h.keep r q e2
    have k2 := h'.keep p r e1
    refine ⟨k2.1.trans k1.1, fun t ht s hs => ?_⟩
    rw [k2.2 t (k1.1.trans ht) s hs, k1.2 t ht s hs]
  · cases e1 : f' p with
    | none => exact h'.drop p t e1 ht
    | some r =>
      rw [e1] at e
      rw [(h'.keep p r e1).1] at ht
      exact h.drop r t e ht

/-- Which containers there are. -/
def ex (m : Mem V) (p : Nat) : Bool := (m.obj p).isSome

theorem ex_some {p : Nat} {t : Tree} (h : m.obj p = some t) : ex m p = true := by simp [ex, h]

theorem ex_true {p : Nat} (h : ex m p = true) : ∃ t, m.obj p = some t := Option.isSome_iff_exists.1 h

theorem ex_false {p : Nat} (h : ex m p = false) : m.obj p = none := by simpa [ex] using h

theorem not_inPool {t : Tree} (h : t.size = 0) (q : Nat) : ¬ inPool t q := by unfold inPool; omega

theorem off_inj (o : Nat) : ∀ p p' r, off o p = some r → off o p' = some r → p = p' := by
  intro p p' r h h'
  unfold off at h h'
  split at h <;> split at h' <;> simp_all

theorem fromTo_inj {r o : Nat} : ∀ p p' q, fromTo r o p = some q → fromTo r o p' = some q → p = p' := by
  intro p p' q h h'
  unfold fromTo at h h'
  by_cases e1 : p = r
  · simp [e1] at h
  · by_cases e2 : p' = r
    · simp [e2] at h'
    · rw [if_neg e1] at h
      rw [if_neg e2] at h'
      by_cases e3 : p = o
      · rw [if_pos e3] at h
        by_cases e4 : p' = o
        · exact e3.trans e4.symm
        · rw [if_neg e4] at h'
          cases h; cases h'; exact absurd rfl e2
      · rw [if_neg e3] at h
        by_cases e4 : p' = o
        · rw [if_pos e4] at h'
          cases h; cases h'; exact absurd rfl e1
        · rw [if_neg e4] at h'
          cases h; cases h'; rfl

theorem exch_inj {a b : Nat} : ∀ p p' q, exch a b p = some q → exch a b p' = some q → p = p' := by
  intro p p' q h h'
  have hh : ∀ p q, exch a b p = some q → exch a b q = some p := by
    intro p q h
    unfold exch at h ⊢
    by_cases e1 : p = b
    · subst e1
      rw [if_pos rfl] at h; cases h
      by_cases e : a = p
      · simp [e]
      · simp [e]
    · rw [if_neg e1] at h
      by_cases e2 : p = a
      · subst e2
        rw [if_pos rfl] at h; cases h
        simp
      · rw [if_neg e2] at h; cases h
        simp [e1, e2]
  have := (hh _ _ h).symm.trans (hh _ _ h')
  exact Option.some.inj this

variable {Q : Unit → Mem V → Prop}

/-- A new container. -/
theorem aw_newT (h : Pools m) {o : Nat} (ho : m.obj o = none)
    (q : ∀ m', Pst (off o) m m' → ex m' = upd (ex m) o true → Q () m') : aw (newObj o Tree.new) Q m := by
  refine aw_newObj ho (q _ ⟨?_, rfl, rfl, fun p r e => ?_, fun p t e ht => ?_⟩ ?_)
  · refine h.change (off o) rfl (fun p t' hp s hs => ⟨rfl, ?_⟩) (off_inj o) fun s hs => ⟨hs, fun r t hr hrs => ?_⟩
    · by_cases e : p = o
      · subst e
        have : t' = Tree.new := by simpa using hp.symm
        subst this
        exact absurd hs (not_inPool rfl s)
      · exact ⟨p, t', by simp [off, e], by simpa [upd, e] using hp, hs⟩
    · have e : r ≠ o := by rintro rfl; rw [ho] at hr; cases hr
      exact ⟨r, t, by simpa [upd, e] using hr, hrs⟩
  · unfold off at e
    split at e
    · cases e
    · cases e; rename_i h1; exact ⟨upd_ne _ _ h1, fun _ _ _ _ => rfl⟩
  · unfold off at e
    split at e
    · rename_i h1; subst h1
      have : t = Tree.new := by simpa using ht.symm
      rw [this]; rfl
    · cases e
  · funext p
    by_cases e : p = o
    · subst e; simp [ex]
    · simp [ex, upd, e]

/-- The tree of `r` goes to the new container `o`. -/
theorem aw_moveT (h : Pools m) {o r : Nat} {t : Tree} (ho : m.obj o = none) (hr : m.obj r = some t)
    (q : ∀ m', Pst (fromTo r o) m m' → ex m' = upd (ex m) o true → Q () m') : aw (moveT o r) Q m := by
  have hor : r ≠ o := by rintro rfl; rw [ho] at hr; cases hr
  unfold moveT
  refine aw_bind (aw_getObj hr (aw_bind (aw_newObj ho ?_)))
  refine aw_setObj (y := t) (by simpa [upd, hor] using hr) (q _ ⟨?_, rfl, rfl, fun p r' e => ?_, fun p t' e ht => ?_⟩ ?_)
  · refine h.change (fromTo r o) rfl (fun p t' hp s hs => ⟨rfl, ?_⟩) fromTo_inj fun s hs => ⟨hs, fun r' t' hr' hrs => ?_⟩
    · by_cases e : p = r
      · subst e
        have : t' = Tree.new := by simpa using hp.symm
        subst this
        exact absurd hs (not_inPool rfl s)
      · by_cases e2 : p = o
        · subst e2
          have : t' = t := by simpa [upd, e] using hp.symm
          subst this
          exact ⟨r, t', by simp [fromTo, e], hr, hs⟩
        · exact ⟨p, t', by simp [fromTo, e, e2], by simpa [upd, e, e2] using hp, hs⟩
    · by_cases e : r' = r
      · subst e
        rw [hr] at hr'; cases hr'
        exact ⟨o, t, by simp [upd, Ne.symm hor], hrs⟩
      · have e2 : r' ≠ o := by rintro rfl; rw [ho] at hr'; cases hr'
        exact ⟨r', t', by simpa [upd, e, e2] using hr', hrs⟩
  · unfold fromTo at e
    refine ⟨?_, fun _ _ _ _ => rfl⟩
    by_cases e1 : p = r
    · simp [e1] at e
    · by_cases e2 : p = o
      · rw [if_neg e1, if_pos e2] at e
        cases e
        subst e2
        simp [upd, e1, hr]
      · rw [if_neg e1, if_neg e2] at e
        cases e
        simp [upd, e1, e2]
  · unfold fromTo at e
    by_cases e1 : p = r
    · subst e1
      have : t' = Tree.new := by simpa using ht.symm
      rw [this]; rfl
    · rw [if_neg e1] at e
      split at e <;> cases e
  · funext p
    by_cases e1 : p = r
    · subst e1; simp [ex, upd, hor, hr]
    · by_cases e2 : p = o
      · subst e2; simp [ex, upd, e1]
      · simp [ex, upd, e1, e2]

theorem aw_swapT (h : Pools m) {a b : Nat} {x y : Tree} (ha : m.obj a = some x) (hb : m.obj b = some y)
    (q : ∀ m', Pst (exch a b) m m' → ex m' = ex m → Q () m') : aw (swapT a b) Q m := by
  unfold swapT
  refine aw_bind (aw_getObj ha (aw_bind (aw_getObj hb (aw_bind (aw_setObj ha ?_)))))
  have hb' : ∃ z, upd m.obj a (some y) b = some z := by
    by_cases e : b = a
    · subst e; exact ⟨y, upd_same _ _ _⟩
    · exact ⟨y, by rw [upd_ne _ _ e]; exact hb⟩
  have hobj : ∀ p, upd (upd m.obj a (some y)) b (some x) p = (exch a b p).bind m.obj := by
    intro p
    unfold exch
    by_cases e1 : p = b
    · subst e1; simp [ha]
    · by_cases e2 : p = a
      · subst e2; simp [upd, e1, hb]
      · simp [upd, e1, e2]
  have hsome : ∀ p, ∃ r, exch a b p = some r := fun p => by
    unfold exch; split
    · exact ⟨_, rfl⟩
    · split <;> exact ⟨_, rfl⟩
  refine aw_setObj hb'.choose_spec (q _ ⟨?_, rfl, rfl, fun p r' e => ?_, fun p t' e ht => ?_⟩ ?_)
  · refine h.change (exch a b) rfl (fun p t' hp s hs => ⟨rfl, ?_⟩) exch_inj fun s hs => ⟨hs, fun r' t' hr' hrs => ?_⟩
    · have hp : upd (upd m.obj a (some y)) b (some x) p = some t' := hp
      rw [hobj] at hp
      obtain ⟨r, hr, hr2⟩ := Option.bind_eq_some_iff.1 hp
      exact ⟨r, t', hr, hr2, hs⟩
    · have : ∃ p, exch a b p = some r' := by
        by_cases e1 : r' = a
        · exact ⟨b, by simp [exch, e1]⟩
        · by_cases e2 : r' = b
          · subst e2; exact ⟨a, by simp [exch, Ne.symm e1]⟩
          · exact ⟨r', by simp [exch, e1, e2]⟩
      obtain ⟨p, hp⟩ := this
      refine ⟨p, t', ?_, hrs⟩
      show upd (upd m.obj a (some y)) b (some x) p = some t'
      rw [hobj, hp]; exact hr'
  · refine ⟨?_, fun _ _ _ _ => rfl⟩
    show upd (upd m.obj a (some y)) b (some x) p = _
    rw [hobj, e]; rfl
  · obtain ⟨r, hr⟩ := hsome p
    rw [hr] at e; cases e
  · funext p
    show (upd (upd m.obj a (some y)) b (some x) p).isSome = _
    by_cases e1 : p = b
    · subst e1; simp [ex, hb]
    · by_cases e2 : p = a
      · subst e2; simp [ex, upd, e1, ha]
      · simp [ex, upd, e1, e2]

/-- The members of container `o`, except its pool, have changed; its tree is not to be used. -/
theorem Pools.set (h : Pools m) {o : Nat} {t t' : Tree} (ho : m.obj o = some t) (hb : t'.base = t.base) (hs : t'.size = t.size) :
    Pools { m with obj := upd m.obj o (some t') } := by
  have hin : ∀ s, inPool t' s ↔ inPool t s := fun s => by unfold inPool; rw [hb, hs]
  refine h.change some rfl (fun p x hp s hx => ⟨rfl, p, ?_⟩) (fun _ _ _ e1 e2 => by cases e1; cases e2; rfl)
    fun s hs => ⟨hs, fun r x hr hrs => ?_⟩
  · by_cases e : p = o
    · subst e
      have : x = t' := by simpa using hp.symm
      subst this
      exact ⟨t, rfl, ho, (hin s).1 hx⟩
    · exact ⟨x, rfl, by simpa [upd, e] using hp, hx⟩
  · by_cases e : r = o
    · subst e
      rw [ho] at hr; cases hr
      exact ⟨r, t', by simp, (hin s).2 hrs⟩
    · exact ⟨r, x, by simpa [upd, e] using hr, hrs⟩

theorem aw_invalidate (h : Pools m) {o : Nat} {t : Tree} (ho : m.obj o = some t)
    (q : ∀ m', Pst (off o) m m' → ex m' = ex m → Q () m') : aw (invalidate o) Q m := by
  unfold invalidate
  refine aw_bind (aw_getObj ho (aw_setObj ho (q _ ⟨h.set ho rfl rfl, rfl, rfl, fun p r e => ?_, fun p t' e ht => ?_⟩ ?_)))
  · unfold off at e
    split at e
    · cases e
    · cases e; rename_i h1; exact ⟨upd_ne _ _ h1, fun _ _ _ _ => rfl⟩
  · unfold off at e
    split at e
    · rename_i h1; subst h1
      have : t' = { t with valid := false } := by simpa using ht.symm
      rw [this]
    · cases e
  · funext p
    by_cases e : p = o
    · subst e; simp [ex, ho]
    · simp [ex, upd, e]

/-- `m_nonleaf_node_pool.clear()` -/
theorem aw_poolClear (h : Pools m) {o : Nat} {t : Tree} (ho : m.obj o = some t)
    (q : ∀ m', Pools m' → m'.lh = m.lh → m'.res = m.res → m'.obj = upd m.obj o (some { t with base := 0, size := 0 }) →
      (∀ s, ¬ inPool t s → m'.nl s = m.nl s) → m'.next = m.next → Q () m') : aw (poolClear o) Q m := by
  unfold poolClear
  refine aw_bind (aw_getObj ho (aw_bind ⟨(), _, rfl, ?_⟩))
  refine aw_setObj ho (q _ ?_ rfl rfl rfl (fun s hs => if_neg hs) rfl)
  refine h.change (off o) rfl (fun p x hp s hx => ?_) (off_inj o) fun s hs => ?_
  · by_cases e : p = o
    · subst e
      have : x = { t with base := 0, size := 0 } := by simpa using hp.symm
      subst this
      exact absurd hx (not_inPool rfl s)
    · have hp : m.obj p = some x := by simpa [upd, e] using hp
      exact ⟨if_neg (h.apart p o x t hp ho e s hx), p, x, by simp [off, e], hp, hx⟩
  · have hs : (if t.base ≤ s ∧ s < t.base + t.size then none else m.nl s : Option Inner).isSome := hs
    by_cases e : t.base ≤ s ∧ s < t.base + t.size
    · rw [if_pos e] at hs; simp at hs
    · rw [if_neg e] at hs
      refine ⟨hs, fun r x hr hrs => ⟨r, x, ?_, hrs⟩⟩
      have hro : r ≠ o := by rintro rfl; rw [ho] at hr; cases hr; exact e hrs
      simpa [upd, hro] using hr

theorem aw_destroyT (h : Pools m) {o : Nat} {t : Tree} (ho : m.obj o = some t)
    (q : ∀ m', Pools m' → m'.lh = m.lh → m'.res = m.res → m'.obj = upd m.obj o (some { t with base := 0, size := 0, root := none }) →
      (∀ s, ¬ inPool t s → m'.nl s = m.nl s) → Q () m') : aw (destroyT o) Q m := by
  unfold destroyT
  refine aw_bind (aw_poolClear h ho fun m1 h1 e1 e2 e3 e4 _ => ?_)
  have ho1 : m1.obj o = some { t with base := 0, size := 0 } := by rw [e3]; simp
  refine aw_bind (aw_getObj ho1 (aw_setObj ho1 (q _ (h1.set ho1 rfl rfl) e1 e2 ?_ e4)))
  show upd m1.obj o _ = _
  rw [e3]
  funext p
  by_cases e : p = o
  · subst e; simp
  · simp [upd, e]

theorem off_frame {o : Nat} {t : Tree} (h : Pools m) (ho : m.obj o = some t) {m' : Mem V} {u : Option Tree}
    (e3 : m'.obj = upd m.obj o u) (e4 : ∀ s, ¬ inPool t s → m'.nl s = m.nl s) :
    ∀ p q, off o p = some q → m'.obj p = m.obj q ∧ ∀ t, m.obj q = some t → ∀ s, inPool t s → m'.nl s = m.nl s := by
  intro p q e
  unfold off at e
  split at e
  · cases e
  · rename_i h1
    cases e
    refine ⟨by rw [e3, upd_ne _ _ h1], fun x hx s hs => e4 s ?_⟩
    exact h.apart p o x t hx ho h1 s hs

theorem aw_destructT (h : Pools m) {o : Nat} {t : Tree} (ho : m.obj o = some t)
    (q : ∀ m', Pst (off o) m m' → ex m' = upd (ex m) o false → Q () m') : aw (destructT o) Q m := by
  unfold destructT
  refine aw_bind (aw_destroyT h ho fun m1 h1 e1 e2 e3 e4 => ?_)
  have ho1 : m1.obj o = some { t with base := 0, size := 0, root := none } := by rw [e3]; simp
  have e3' : upd m1.obj o none = upd m.obj o none := by
    funext p
    by_cases e : p = o
    · subst e; simp
    · simp [upd, e, e3]
  refine aw_endObj ho1 (q _ ⟨?_, e1, e2, off_frame (m' := { m1 with obj := upd m1.obj o none }) h ho e3' e4, fun p t' e ht => ?_⟩ ?_)
  · refine h1.change (off o) rfl (fun p x hp s hx => ⟨rfl, ?_⟩) (off_inj o) fun s hs => ⟨hs, fun r x hr hrs => ?_⟩
    · by_cases e : p = o
      · subst e; simp at hp
      · exact ⟨p, x, by simp [off, e], by simpa [upd, e] using hp, hx⟩
    · by_cases e : r = o
      · subst e
        rw [ho1] at hr; cases hr
        exact absurd hrs (not_inPool rfl s)
      · exact ⟨r, x, by simpa [upd, e] using hr, hrs⟩
  · unfold off at e
    split at e
    · rename_i h1; subst h1
      simp at ht
    · cases e
  · funext p
    show (upd m1.obj o none p).isSome = _
    rw [e3']
    by_cases e : p = o
    · subst e; simp
    · simp [ex, upd, e]

theorem aw_clearT (h : Pools m) {o : Nat} {t : Tree} (ho : m.obj o = some t)
    (q : ∀ m', Pst (off o) m m' → ex m' = ex m → Q () m') : aw (do destroyT o; invalidate o) Q m := by
  refine aw_bind (aw_destroyT h ho fun m1 h1 e1 e2 e3 e4 => ?_)
  have ho1 : m1.obj o = some { t with base := 0, size := 0, root := none } := by rw [e3]; simp
  refine aw_invalidate h1 ho1 fun m2 p2 x2 => q m2 ⟨p2.pools, p2.lh.trans e1, p2.res.trans e2, fun p r e => ?_, p2.drop⟩ ?_
  · have k1 := off_frame h ho e3 e4 p r e
    have hpr : p = r ∧ p ≠ o := by
      unfold off at e
      split at e
      · cases e
      · rename_i h1; cases e; exact ⟨rfl, h1⟩
    obtain ⟨rfl, hpo⟩ := hpr
    have k2 := p2.keep p p e
    refine ⟨k2.1.trans k1.1, fun x hx s hs => ?_⟩
    rw [k2.2 x (k1.1.trans hx) s hs, k1.2 x hx s hs]
  · rw [x2]
    funext p
    by_cases e : p = o
    · subst e; simp [ex, ho1, ho]
    · simp [ex, e3, upd, e]

/-! ## All calls -/

theorem slot_inj {a b : Nat} (h : slot a = slot b) : a = b := Nat.succ.inj h

theorem off_num (o p : Nat) : off (slot o) (slot p) = (off o p).map slot := by
  unfold off slot
  by_cases h : p = o <;> simp [h]

theorem fromTo_num (r o p : Nat) : fromTo (slot r) (slot o) (slot p) = (fromTo r o p).map slot := by
  unfold fromTo slot
  by_cases h : p = r
  · simp [h]
  · by_cases h2 : p = o
    · subst h2; simp [h]
    · simp [h, h2]

theorem exch_num (a b p : Nat) : exch (slot a) (slot b) (slot p) = (exch a b p).map slot := by
  unfold exch slot
  by_cases h : p = b
  · simp [h]
  · by_cases h2 : p = a
    · subst h2; simp [h]
    · simp [h, h2]

/-- `Pst` for the containers of the program. -/
structure Pcall (f : Nat → Option Nat) (m m' : Mem V) (S' : Objs V) : Prop where
  pools : Pools m'
  lh : m'.lh = m.lh
  res : m'.res = m.res
  keep : ∀ p q, f p = some q → m'.obj (slot p) = m.obj (slot q) ∧
    ∀ t, m.obj (slot q) = some t → ∀ s, inPool t s → m'.nl s = m.nl s
  drop : ∀ p t, f p = none → m'.obj (slot p) = some t → t.valid = false
  temp : ex m' 0 = false
  exs : ∀ p, ex m' (slot p) = (S' p).isSome

theorem Pst.call {f f' : Nat → Option Nat} {m m' : Mem V} {S' : Objs V} (h : Pst f m m') (hf : ∀ p, f (slot p) = (f' p).map slot)
    (ht : ex m' 0 = false) (hs : ∀ p, ex m' (slot p) = (S' p).isSome) : Pcall f' m m' S' := by
  refine ⟨h.pools, h.lh, h.res, fun p q e => h.keep _ _ (by rw [hf, e]; rfl), fun p t e h' => h.drop _ t (by rw [hf, e]; rfl) h', ht, hs⟩

theorem slot_ne (o : Nat) : slot o ≠ 0 := Nat.succ_ne_zero o

theorem Pst.refl (h : Pools m) : Pst some m m :=
  ⟨h, rfl, rfl, fun p q e => by cases e; exact ⟨rfl, fun _ _ _ _ => rfl⟩, fun p t e => by cases e⟩

theorem upd_slot {α : Type} (f : Nat → α) (o p : Nat) (v : α) : upd f (slot o) v (slot p) = upd (fun p => f (slot p)) o v p := by
  by_cases e : p = o
  · subst e; simp
  · have : slot p ≠ slot o := fun h => e (slot_inj h)
    rw [upd_ne _ _ this, upd_ne _ _ e]

theorem upd_isSome {α : Type} (S : Nat → Option α) (o p : Nat) (v : Option α) :
    (upd S o v p).isSome = upd (fun p => (S p).isSome) o v.isSome p := by
  by_cases e : p = o
  · subst e; simp
  · simp [upd, e]

theorem omap_ok {α β : Type} {f : α → β} {x : Outcome α} {y : β} (h : x.map f = .ok y) : ∃ a, x = .ok a ∧ f a = y := by
  cases x with
  | ok a => exact ⟨a, rfl, Outcome.ok.inj h⟩
  | err e => cases h
  | ub => cases h

section
variable [DecidableEq V]

theorem aw_poolPart (dv : V) {S S' : Objs V} {c : Call V} {out : Out V} (hs : listStep dv S c = .ok (S', out)) (h : Pools m)
    (h0 : ex m 0 = false) (hex : ∀ p, ex m (slot p) = (S p).isSome) :
    aw (poolPart out.2 c) (fun _ m' => Pcall (origin c out.2) m m' S') m := by
  have hno : ∀ {o}, S o = none → m.obj (slot o) = none := fun e => ex_false (by rw [hex, e]; rfl)
  have hyes : ∀ {o x}, S o = some x → ∃ t, m.obj (slot o) = some t := fun e => ex_true (by rw [hex, e]; rfl)
  have hm0 : m.obj 0 = none := ex_false h0
  have same : ∀ {o : Nat} {x y : Mdds.FST.Mem.Obj V}, S o = some x → ∀ p, ex m (slot p) = (upd S o (some y) p).isSome := by
    intro o x y hx p
    rw [hex, upd_isSome]
    by_cases e : p = o
    · subst e; simp [hx]
    · simp [upd, e]
  cases c with
  | make o lo hi iv =>
    simp only [listStep] at hs
    cases ho : S o with
    | some x => rw [ho] at hs; cases hs
    | none =>
      rw [ho] at hs; cases hs
      refine aw_newT h (hno ho) fun m' p e => p.call (off_num o) ?_ fun q => ?_
      · rw [e, upd_ne _ _ (Ne.symm (slot_ne o))]; exact h0
      · rw [e, upd_slot, upd_isSome]; simp only [hex]; rfl
  | destroy o =>
    simp only [listStep] at hs
    cases ho : S o with
    | none => rw [ho] at hs; cases hs
    | some x =>
      rw [ho] at hs
      simp only at hs
      split at hs
      · cases hs
      · cases hs
        obtain ⟨t, ht⟩ := hyes ho
        refine aw_destructT h ht fun m' p e => p.call (off_num o) ?_ fun q => ?_
        · rw [e, upd_ne _ _ (Ne.symm (slot_ne o))]; exact h0
        · rw [e, upd_slot, upd_isSome]; simp only [hex]; rfl
  | copy o r =>
    simp only [listStep] at hs
    split at hs
    · rename_i x ho hr
      split at hs
      · cases hs
      · cases hs
        refine aw_newT h (hno ho) fun m' p e => p.call (off_num o) ?_ fun q => ?_
        · rw [e, upd_ne _ _ (Ne.symm (slot_ne o))]; exact h0
        · rw [e, upd_slot, upd_isSome]; simp only [hex]; rfl
    · cases hs
  | move o r =>
    simp only [listStep] at hs
    split at hs
    · rename_i x ho hr
      cases hs
      obtain ⟨t, ht⟩ := hyes hr
      refine aw_moveT h (hno ho) ht fun m' p e => p.call (fromTo_num r o) ?_ fun q => ?_
      · rw [e, upd_ne _ _ (Ne.symm (slot_ne o))]; exact h0
      · rw [e, upd_slot]
        have hro : r ≠ o := by rintro rfl; rw [ho] at hr; cases hr
        by_cases e1 : q = r
        · subst e1; simp [upd, hro, hex, hr]
        · by_cases e2 : q = o
          · subst e2; simp [upd, e1]
          · simp [upd, e1, e2, hex]
    · cases hs
  | assignCopy o r =>
    simp only [listStep] at hs
    split at hs
    · rename_i y x ho hr
      split at hs
      · cases hs
      · cases hs
        obtain ⟨t, ht⟩ := hyes ho
        refine aw_bind (aw_newT h hm0 fun m1 p1 e1 => ?_)
        obtain ⟨t1, ht1⟩ : ∃ t, m1.obj (slot o) = some t := ex_true (by rw [e1, upd_ne _ _ (slot_ne o)]; exact ex_some ht)
        obtain ⟨t0, ht0⟩ : ∃ t, m1.obj 0 = some t := ex_true (by rw [e1]; simp)
        refine aw_bind (aw_swapT p1.pools ht1 ht0 fun m2 p2 e2 => ?_)
        obtain ⟨t2, ht2⟩ : ∃ t, m2.obj 0 = some t := ex_true (by rw [e2]; exact ex_some ht0)
        refine aw_destructT p2.pools ht2 fun m3 p3 e3 => ((p1.comp p2).comp p3).call (fun q => ?_) ?_ fun q => ?_
        · by_cases e : q = o
          · subst e; simp [off, exch, slot, origin]
          · simp [off, exch, slot, origin, e]
        · rw [e3]; simp
        · rw [e3, upd_ne _ _ (slot_ne q), e2, e1, upd_ne _ _ (slot_ne q)]
          exact same ho q
    · cases hs
  | assignMove o r =>
    simp only [listStep] at hs
    split at hs
    · rename_i y x ho hr
      obtain ⟨tl, hto⟩ := hyes ho
      obtain ⟨tr, htr⟩ := hyes hr
      have hrun : ∀ f' S', (∀ q, (((off 0 (slot q)).bind (exch (slot o) 0)).bind (fromTo (slot r) 0)) = (f' q).map slot) →
          (∀ p, ex m (slot p) = (S' p).isSome) →
          aw (poolPart out.2 (.assignMove o r)) (fun _ m' => Pcall f' m m' S') m := by
        intro f' S' hf hS
        refine aw_bind (aw_moveT h hm0 htr fun m1 p1 e1 => ?_)
        obtain ⟨t1, ht1⟩ : ∃ t, m1.obj (slot o) = some t := ex_true (by rw [e1, upd_ne _ _ (slot_ne o)]; exact ex_some hto)
        obtain ⟨t0, ht0⟩ : ∃ t, m1.obj 0 = some t := ex_true (by rw [e1]; simp)
        refine aw_bind (aw_swapT p1.pools ht1 ht0 fun m2 p2 e2 => ?_)
        obtain ⟨t2, ht2⟩ : ∃ t, m2.obj 0 = some t := ex_true (by rw [e2]; exact ex_some ht0)
        refine aw_destructT p2.pools ht2 fun m3 p3 e3 => ((p1.comp p2).comp p3).call (fun q => ?_) ?_ fun q => ?_
        · rw [← hf q]
          cases off 0 (slot q) <;> rfl
        · rw [e3]; simp
        · rw [e3, upd_ne _ _ (slot_ne q), e2, e1, upd_ne _ _ (slot_ne q)]
          exact hS q
      split at hs
      · rename_i e
        cases hs
        subst e
        refine hrun _ _ (fun q => ?_) hex
        by_cases e : q = o
        · subst e; simp [off, exch, fromTo, slot, origin]
        · simp [off, exch, fromTo, slot, origin, e]
      · rename_i e
        split at hs
        · cases hs
        · cases hs
          refine hrun _ _ (fun q => ?_) fun q => ?_
          · by_cases e1 : q = o
            · subst e1; simp [off, exch, fromTo, slot, origin, e]
            · by_cases e2 : q = r
              · subst e2; simp [off, exch, fromTo, slot, origin, e, e1]
              · simp [off, exch, fromTo, slot, origin, e, e1, e2]
          · rw [hex]
            by_cases e1 : q = r
            · subst e1; simp [hr]
            · by_cases e2 : q = o
              · subst e2; simp [upd, e1, ho]
              · simp [upd, e1, e2]
    · cases hs
  | swap a b =>
    simp only [listStep] at hs
    split at hs
    · rename_i x y ha hb
      cases hs
      obtain ⟨ta, hta⟩ := hyes ha
      obtain ⟨tb, htb⟩ := hyes hb
      refine aw_swapT h hta htb fun m' p e => p.call (exch_num a b) (by rw [e]; exact h0) fun q => ?_
      rw [e, hex]
      by_cases e1 : q = b
      · subst e1; simp [hb]
      · by_cases e2 : q = a
        · subst e2; simp [upd, e1, ha]
        · simp [upd, e1, e2]
    · cases hs
  | clear o =>
    simp only [listStep] at hs
    cases ho : S o with
    | none => rw [ho] at hs; cases hs
    | some x =>
      rw [ho] at hs
      obtain ⟨ls, -, e⟩ := omap_ok hs
      cases e
      obtain ⟨t, ht⟩ := hyes ho
      exact aw_clearT h ht fun m' p e => p.call (off_num o) (by rw [e]; exact h0) fun q => by rw [e]; exact same ho q
  | insert o s e v fwd =>
    simp only [listStep] at hs
    cases ho : S o with
    | none => rw [ho] at hs; cases hs
    | some x =>
      rw [ho] at hs
      obtain ⟨r, -, er⟩ := omap_ok hs
      cases er
      obtain ⟨t, ht⟩ := hyes ho
      cases hf : r.changed with
      | true =>
        simp only [poolPart, origin, hf, if_true]
        exact aw_invalidate h ht fun m' p e => p.call (off_num o) (by rw [e]; exact h0) fun q => by rw [e]; exact same ho q
      | false =>
        simp only [poolPart, origin, hf]
        exact aw_ret ((Pst.refl h).call (fun _ => rfl) h0 (same ho))
  | insertAt o hint s e v =>
    simp only [listStep] at hs
    cases ho : S o with
    | none => rw [ho] at hs; cases hs
    | some x =>
      rw [ho] at hs
      obtain ⟨r, -, er⟩ := omap_ok hs
      cases er
      obtain ⟨t, ht⟩ := hyes ho
      cases hf : r.changed with
      | true =>
        simp only [poolPart, origin, hf, if_true]
        exact aw_invalidate h ht fun m' p e => p.call (off_num o) (by rw [e]; exact h0) fun q => by rw [e]; exact same ho q
      | false =>
        simp only [poolPart, origin, hf]
        exact aw_ret ((Pst.refl h).call (fun _ => rfl) h0 (same ho))
  | shiftLeft o s e =>
    simp only [listStep] at hs
    cases ho : S o with
    | none => rw [ho] at hs; cases hs
    | some x =>
      rw [ho] at hs
      obtain ⟨r, -, er⟩ := omap_ok hs
      cases er
      obtain ⟨t, ht⟩ := hyes ho
      cases hf : r.2 with
      | false =>
        simp only [poolPart, origin, hf]
        exact aw_invalidate h ht fun m' p e => p.call (off_num o) (by rw [e]; exact h0) fun q => by rw [e]; exact same ho q
      | true =>
        simp only [poolPart, origin, hf, if_true]
        exact aw_ret ((Pst.refl h).call (fun _ => rfl) h0 (same ho))
  | shiftRight o pos size skip =>
    simp only [listStep] at hs
    cases ho : S o with
    | none => rw [ho] at hs; cases hs
    | some x =>
      rw [ho] at hs
      obtain ⟨r, -, er⟩ := omap_ok hs
      cases er
      obtain ⟨t, ht⟩ := hyes ho
      cases hf : r.2 with
      | false =>
        simp only [poolPart, origin, hf]
        exact aw_invalidate h ht fun m' p e => p.call (off_num o) (by rw [e]; exact h0) fun q => by rw [e]; exact same ho q
      | true =>
        simp only [poolPart, origin, hf, if_true]
        exact aw_ret ((Pst.refl h).call (fun _ => rfl) h0 (same ho))

end

end Mdds.FST.Pool
