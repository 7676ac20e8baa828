import Verif.SegTree.HeapBuild

/-!
# Marking, searching and unmarking in memory
-/
namespace Mdds.SegTree.Mem

open Mdds.FST.Mem hiding Path

variable {V : Type}

/-- The chains of all nodes. -/
def chm (W : Nat → Chain) (nl : Nat → Option Inner) : Ptr → Chain
  | .leaf a => W a
  | .inner p => (nl p).bind Inner.chain

/-- Only chains have changed from `m` to `m'`. -/
structure Ch (C : Nat → List Nat) (m : Mem V) (g : Pic Chain) (m' : Mem V) (g' : Pic Chain) : Prop where
  mem : m' = { m with lh := m'.lh, nl := m'.nl }
  wld : Wld g' m'.lh C
  pic : g' = { g with W := g'.W }
  strip : ∀ p, (m'.nl p).map strip = (m.nl p).map strip

namespace Ch

variable {C : Nat → List Nat} {m m1 m2 : Mem V} {g g1 g2 : Pic Chain}

theorem refl (w : Wld g m.lh C) : Ch C m g m g := ⟨rfl, w, rfl, fun _ => rfl⟩

theorem trans (h1 : Ch C m g m1 g1) (h2 : Ch C m1 g1 m2 g2) : Ch C m g m2 g2 :=
  ⟨by rw [h2.mem, h1.mem], h2.wld, by rw [h2.pic, h1.pic], fun p => by rw [h2.strip, h1.strip]⟩

theorem K (h : Ch C m g m1 g1) : g1.K = g.K := by rw [h.pic]

theorem held (h : Ch C m g m1 g1) {S : Shape} (hh : Held m.nl g.K S) : Held m1.nl g1.K S :=
  hh.congr (fun p _ => h.strip p) (fun a _ => by rw [h.K])

theorem obj (h : Ch C m g m1 g1) : m1.obj = m.obj := by rw [h.mem]
theorem res (h : Ch C m g m1 g1) : m1.res = m.res := by rw [h.mem]
theorem next (h : Ch C m g m1 g1) : m1.next = m.next := by rw [h.mem]

theorem isSome (h : Ch C m g m1 g1) (p : Nat) : (m1.nl p).isSome = (m.nl p).isSome := by
  have := h.strip p
  cases e1 : m1.nl p <;> cases e2 : m.nl p <;> simp_all

end Ch

theorem Wld.setW {g : Pic Chain} {h h' : Heap Chain} {C : Nat → List Nat} (w : Wld g h C) {W : Nat → Chain}
    (s : Sat { g with W := W } h') : Wld { g with W := W } h' C :=
  ⟨s, w.left, w.right, w.fwd, w.bwd, w.nodup, w.disj, w.vars, w.U⟩

variable {C : Nat → List Nat} {m : Mem V} {g : Pic Chain}

/-- Writing the chain of a leaf. -/
theorem aw_setLeaf (w : Wld g m.lh C) {o a : Nat} (ha : a ∈ C o) (c : Chain) {Q : Unit → Mem V → Prop}
    (q : ∀ m' g', Ch C m g m' g' → chm g'.W m'.nl = upd (chm g.W m.nl) (.leaf a) c → Q () m') :
    aw (onLeaves (setVal a c)) Q m := by
  refine aw_leaves (wp_setVal w.sat (w.live ha) fun h' s => q _ { g with W := upd g.W a c } ⟨rfl, Wld.setW w s, rfl, fun _ => rfl⟩ ?_)
  funext q
  cases q with
  | leaf b => by_cases e : b = a <;> simp [chm, upd, e]
  | inner p => simp [chm, upd]

/-- Writing the chain of a non-leaf node. -/
theorem aw_setInner (w : Wld g m.lh C) {p : Nat} {n : Inner} (hp : m.nl p = some n) (c : Chain) {Q : Unit → Mem V → Prop}
    (q : ∀ m' g', Ch C m g m' g' → chm g'.W m'.nl = upd (chm g.W m.nl) (.inner p) c → Q () m') :
    aw (writeInner p { n with chain := c }) Q m := by
  refine aw_writeInner hp (q _ g ⟨rfl, w, rfl, fun x => ?_⟩ ?_)
  · by_cases e : x = p
    · subst e; simp [hp, strip]
    · show (upd m.nl p _ x).map _ = _
      rw [upd_ne _ _ e]
  · funext q
    cases q with
    | leaf b => simp [chm, upd]
    | inner x => by_cases e : x = p <;> simp [chm, upd, e]

/-! ## Marking -/

theorem aw_markLeaf (w : Wld g m.lh C) {o a : Nat} (ha : a ∈ C o) (i : Nat) (s e : Int) (fuel : Nat) :
    aw (markP i s e (fuel + 1) (.leaf a)) (fun ps m' => ∃ g', Ch C m g m' g' ∧ ps = (if s ≤ g.K a ∧ g.K a < e then [Ptr.leaf a] else []) ∧
      chm g'.W m'.nl = pushAll i (if s ≤ g.K a ∧ g.K a < e then [Ptr.leaf a] else []) (chm g.W m.nl)) m := by
  simp only [markP]
  refine aw_bind (aw_leaves (wp_getKey w.sat (w.live ha) ?_))
  by_cases h : s ≤ g.K a ∧ g.K a < e
  · rw [if_pos h, if_pos h]
    refine aw_bind (aw_leaves (wp_getVal w.sat (w.live ha) (aw_bind (aw_setLeaf w ha _ fun m' g' c e => aw_pure ?_))))
    exact ⟨g', c, rfl, e⟩
  · rw [if_neg h, if_neg h]
    exact aw_pure ⟨g, Ch.refl w, rfl, rfl⟩

theorem held_top1 {nl : Nat → Option Inner} {p : Nat} {l h : Int} {x y : Option Ptr}
    (e : (nl p).map strip = some ⟨l, h, none, x, y⟩) : ∃ c, nl p = some ⟨l, h, c, x, y⟩ := by
  obtain ⟨n, e1, e2⟩ := Option.map_eq_some_iff.1 e
  refine ⟨n.chain, ?_⟩
  rw [e1]
  cases n
  simp [strip] at e2
  simp [e2]

theorem aw_markP (i : Nat) (s e : Int) {o : Nat} : ∀ (S : Shape) (fuel : Nat) (m : Mem V) (g : Pic Chain), Wld g m.lh C →
    Held m.nl g.K S → (∀ a ∈ S.leaves, a ∈ C o) → S.depth < fuel →
    aw (markP i s e fuel (.inner S.addr)) (fun ps m' => ∃ g', Ch C m g m' g' ∧ ps = marks s e S ∧
      chm g'.W m'.nl = pushAll i (marks s e S) (chm g.W m.nl)) m := by
  intro S
  induction S with
  | bot1 p l h a ka =>
    intro fuel m g w hh hl hf
    obtain ⟨fuel, rfl⟩ : ∃ f, fuel = f + 2 := ⟨fuel - 2, by simp [Shape.depth] at hf; omega⟩
    obtain ⟨c, hp⟩ := held_top1 hh.1
    have hka := hh.2
    simp only [Shape.addr, markP, marks]
    refine aw_bind (aw_readInner hp ?_)
    simp only
    by_cases h1 : e < l ∨ h ≤ s
    · rw [if_pos h1, if_pos h1]; exact aw_pure ⟨g, Ch.refl w, rfl, rfl⟩
    · rw [if_neg h1, if_neg h1]
      by_cases h2 : s ≤ l ∧ h < e
      · rw [if_pos h2, if_pos h2]
        refine aw_bind (aw_setInner w hp _ fun m' g' c' e' => aw_pure ⟨g', c', rfl, ?_⟩)
        rw [e']; simp [pushAll, chm, hp]
      · rw [if_neg h2, if_neg h2]
        refine aw_bind (aw_mono (aw_markLeaf w (hl a (by simp [Shape.leaves])) i s e fuel) ?_)
        rintro ps m' ⟨g', c', rfl, e'⟩
        rw [hka] at e' ⊢
        exact aw_bind (aw_ret (aw_pure ⟨g', c', by simp, e'⟩))
  | bot2 p l h a ka b kb =>
    intro fuel m g w hh hl hf
    obtain ⟨fuel, rfl⟩ : ∃ f, fuel = f + 2 := ⟨fuel - 2, by simp [Shape.depth] at hf; omega⟩
    obtain ⟨c, hp⟩ := held_top1 hh.1
    have hka := hh.2.1
    have hkb := hh.2.2
    simp only [Shape.addr, markP, marks]
    refine aw_bind (aw_readInner hp ?_)
    simp only
    by_cases h1 : e < l ∨ h ≤ s
    · rw [if_pos h1, if_pos h1]; exact aw_pure ⟨g, Ch.refl w, rfl, rfl⟩
    · rw [if_neg h1, if_neg h1]
      by_cases h2 : s ≤ l ∧ h < e
      · rw [if_pos h2, if_pos h2]
        refine aw_bind (aw_setInner w hp _ fun m' g' c' e' => aw_pure ⟨g', c', rfl, ?_⟩)
        rw [e']; simp [pushAll, chm, hp]
      · rw [if_neg h2, if_neg h2]
        refine aw_bind (aw_mono (aw_markLeaf w (hl a (by simp [Shape.leaves])) i s e fuel) ?_)
        rintro ps m' ⟨g', c', rfl, e'⟩
        refine aw_bind (aw_mono (aw_markLeaf c'.wld (hl b (by simp [Shape.leaves])) i s e fuel) ?_)
        rintro ps m'' ⟨g'', c'', rfl, e''⟩
        rw [c'.K, hkb] at e'' ⊢
        rw [hka] at e' ⊢
        exact aw_pure ⟨g'', c'.trans c'', rfl, by rw [e'', e', pushAll_append]⟩
  | one p l h t ih =>
    intro fuel m g w hh hl hf
    obtain ⟨fuel, rfl⟩ : ∃ f, fuel = f + 1 := ⟨fuel - 1, by simp [Shape.depth] at hf; omega⟩
    obtain ⟨c, hp⟩ := held_top1 hh.1
    simp only [Shape.addr, markP, marks]
    refine aw_bind (aw_readInner hp ?_)
    simp only
    by_cases h1 : e < l ∨ h ≤ s
    · rw [if_pos h1, if_pos h1]; exact aw_pure ⟨g, Ch.refl w, rfl, rfl⟩
    · rw [if_neg h1, if_neg h1]
      by_cases h2 : s ≤ l ∧ h < e
      · rw [if_pos h2, if_pos h2]
        refine aw_bind (aw_setInner w hp _ fun m' g' c' e' => aw_pure ⟨g', c', rfl, ?_⟩)
        rw [e']; simp [pushAll, chm, hp]
      · rw [if_neg h2, if_neg h2]
        refine aw_bind (aw_mono (ih fuel m g w hh.2 hl (by simp [Shape.depth] at hf; omega)) ?_)
        rintro ps m' ⟨g', c', rfl, e'⟩
        exact aw_bind (aw_ret (aw_pure ⟨g', c', by simp, e'⟩))
  | two p l h t u iht ihu =>
    intro fuel m g w hh hl hf
    obtain ⟨fuel, rfl⟩ : ∃ f, fuel = f + 1 := ⟨fuel - 1, by simp [Shape.depth] at hf; omega⟩
    obtain ⟨c, hp⟩ := held_top1 hh.1
    simp only [Shape.addr, markP, marks]
    refine aw_bind (aw_readInner hp ?_)
    simp only
    by_cases h1 : e < l ∨ h ≤ s
    · rw [if_pos h1, if_pos h1]; exact aw_pure ⟨g, Ch.refl w, rfl, rfl⟩
    · rw [if_neg h1, if_neg h1]
      by_cases h2 : s ≤ l ∧ h < e
      · rw [if_pos h2, if_pos h2]
        refine aw_bind (aw_setInner w hp _ fun m' g' c' e' => aw_pure ⟨g', c', rfl, ?_⟩)
        rw [e']; simp [pushAll, chm, hp]
      · rw [if_neg h2, if_neg h2]
        refine aw_bind (aw_mono (iht fuel m g w hh.2.1 (fun a ha => hl a (by simp [Shape.leaves, ha]))
          (by simp [Shape.depth] at hf; omega)) ?_)
        rintro ps m' ⟨g', c', rfl, e'⟩
        refine aw_bind (aw_mono (ihu fuel m' g' c'.wld (c'.held hh.2.2) (fun a ha => hl a (by simp [Shape.leaves, ha]))
          (by simp [Shape.depth] at hf; omega)) ?_)
        rintro ps m'' ⟨g'', c'', rfl, e''⟩
        exact aw_pure ⟨g'', c'.trans c'', rfl, by rw [e'', e', pushAll_append]⟩

/-- Marked nodes by address and by path. -/
def TagRel (S : Shape) (x : Nat × List Ptr) (y : Nat × List Path) : Prop :=
  x.1 = y.1 ∧ y.2.map (ptrAt · S) = x.2.map some

theorem push_mem {c : Chain} {i j : Nat} (h : j ∈ c.list) : j ∈ (c.push i).list := by simp [h]

theorem pushAll_mem_mono {i j : Nat} : ∀ (ps : List Ptr) (ch : Ptr → Chain) (q : Ptr), j ∈ (ch q).list → j ∈ (pushAll i ps ch q).list := by
  intro ps
  induction ps with
  | nil => intro ch q h; exact h
  | cons p ps ih =>
    intro ch q h
    refine ih _ q ?_
    by_cases e : q = p
    · subst e; simpa using .inl h
    · show j ∈ (upd ch p _ q).list
      rw [upd_ne _ _ e]; exact h

theorem pushAll_mem {i : Nat} : ∀ (ps : List Ptr) (ch : Ptr → Chain) (q : Ptr), q ∈ ps → i ∈ (pushAll i ps ch q).list := by
  intro ps
  induction ps with
  | nil => intro ch q h; simp at h
  | cons p ps ih =>
    intro ch q h
    by_cases e : q ∈ ps
    · exact ih _ q e
    · have : q = p := by simpa [e] using h
      subst this
      exact pushAll_mem_mono ps _ _ (by simp)

theorem aw_markAllP {o : Nat} {S : Shape} (d : S.Distinct) (fuel : Nat) (hl : ∀ a ∈ S.leaves, a ∈ C o) (hf : S.depth < fuel) :
    ∀ (segs : List (Seg V)) (i : Nat) (m : Mem V) (g : Pic Chain), Wld g m.lh C → Held m.nl g.K S →
    aw (markAllP fuel (some S.addr) i segs) (fun tags m' => ∃ g', Ch C m g m' g' ∧
      view (chm g'.W m'.nl) S = (markAll i segs (view (chm g.W m.nl) S)).1 ∧
      List.Forall₂ (TagRel S) tags (markAll i segs (view (chm g.W m.nl) S)).2 ∧
      (∀ q, ¬ S.Has q → chm g'.W m'.nl q = chm g.W m.nl q) ∧
      (∀ q j, j ∈ (chm g.W m.nl q).list → j ∈ (chm g'.W m'.nl q).list) ∧
      ∀ x ∈ tags, ∀ q ∈ x.2, S.Has q ∧ x.1 ∈ (chm g'.W m'.nl q).list) m := by
  intro segs
  induction segs with
  | nil => intro i m g w hh; exact aw_ret ⟨g, Ch.refl w, rfl, .nil, fun _ _ => rfl, fun _ _ h => h, by simp⟩
  | cons s ss ih =>
    intro i m g w hh
    simp only [markAllP, markAll]
    refine aw_bind (aw_mono (aw_markP i s.start s.stop S fuel m g w hh hl hf) ?_)
    rintro ps m' ⟨g', c', rfl, e'⟩
    refine aw_bind (aw_mono (ih (i + 1) m' g' c'.wld (c'.held hh)) ?_)
    rintro tags m'' ⟨g'', c'', e1, e2, e3, e4, e5⟩
    have hv : view (chm g'.W m'.nl) S = (mark i s.start s.stop (view (chm g.W m.nl) S)).1 := by
      rw [e', view_mark _ _ _ _ d]
    rw [hv] at e1 e2
    refine aw_pure ⟨g'', c'.trans c'', e1, .cons ⟨rfl, marks_paths ..⟩ e2, fun q hq => ?_, fun q j hj => ?_, fun x hx q hq => ?_⟩
    · rw [e3 q hq, e', pushAll_not_mem]
      exact fun hm => hq (marks_has hm)
    · refine e4 q j ?_
      rw [e']; exact pushAll_mem_mono _ _ _ hj
    · rcases List.mem_cons.1 hx with rfl | hx
      · refine ⟨marks_has hq, e4 q _ ?_⟩
        rw [e']; exact pushAll_mem _ _ _ hq
      · exact e5 x hx q hq

/-! ## Searching -/

theorem aw_chainOf_leaf (w : Wld g m.lh C) {o a : Nat} (ha : a ∈ C o) {Q : Chain → Mem V → Prop} (q : Q (chm g.W m.nl (.leaf a)) m) :
    aw (chainOf (.leaf a)) Q m :=
  aw_leaves (wp_getVal w.sat (w.live ha) q)

theorem aw_chainOf_inner {p : Nat} {n : Inner} (hp : m.nl p = some n) {Q : Chain → Mem V → Prop} (q : Q (chm g.W m.nl (.inner p)) m) :
    aw (chainOf (.inner p)) Q m :=
  aw_bind (aw_readInner hp (aw_pure (by simpa [chm, hp] using q)))

theorem Held.isSome {nl : Nat → Option Inner} {K : Nat → Int} {S : Shape} (h : Held nl K S) {p : Nat} (hp : p ∈ S.inners) :
    ∃ n, nl p = some n := by
  induction S with
  | bot1 q l hh a ka =>
    simp only [Shape.inners, List.mem_singleton] at hp
    subst hp
    exact ⟨_, (held_top1 h.1).choose_spec⟩
  | bot2 q l hh a ka b kb =>
    simp only [Shape.inners, List.mem_singleton] at hp
    subst hp
    exact ⟨_, (held_top1 h.1).choose_spec⟩
  | one q l hh s ih =>
    simp only [Shape.inners, List.mem_cons] at hp
    rcases hp with rfl | hp
    · exact ⟨_, (held_top1 h.1).choose_spec⟩
    · exact ih h.2 hp
  | two q l hh s t ihs iht =>
    simp only [Shape.inners, List.mem_cons, List.mem_append] at hp
    rcases hp with rfl | hp | hp
    · exact ⟨_, (held_top1 h.1).choose_spec⟩
    · exact ihs h.2.1 hp
    · exact iht h.2.2 hp

/-- The node is there. -/
def Rd (C : Nat → List Nat) (nl : Nat → Option Inner) : Ptr → Prop
  | .leaf a => ∃ o, a ∈ C o
  | .inner p => ∃ n, nl p = some n

theorem Held.rd {o : Nat} {nl : Nat → Option Inner} {K : Nat → Int} {S : Shape} (hh : Held nl K S) (hl : ∀ a ∈ S.leaves, a ∈ C o)
    {q : Ptr} (hq : S.Has q) : Rd C nl q := by
  cases q with
  | leaf a => exact ⟨o, hl a hq⟩
  | inner p => exact hh.isSome hq

theorem aw_chainOf (w : Wld g m.lh C) {q : Ptr} (hq : Rd C m.nl q) {Q : Chain → Mem V → Prop} (h : Q (chm g.W m.nl q) m) :
    aw (chainOf q) Q m := by
  cases q with
  | leaf a => exact aw_chainOf_leaf w hq.choose_spec h
  | inner p =>
    obtain ⟨n, hn⟩ := hq
    exact aw_chainOf_inner (g := g) hn h

/-- The nodes with a non-empty chain. -/
def nonEmpty (ch : Ptr → Chain) (ps : List Ptr) : List Ptr := ps.filter fun q => decide ((ch q).list ≠ [])

theorem offer_eq (ch : Ptr → Chain) (q : Ptr) : offer q (ch q) = nonEmpty ch [q] := by
  by_cases h : (ch q).list = []
  · simp [offer, nonEmpty, h, show Option.getD (ch q) [] = [] from h]
  · simp [offer, nonEmpty, h, show ¬ Option.getD (ch q) [] = [] from h]

theorem nonEmpty_cons (ch : Ptr → Chain) (q : Ptr) (ps : List Ptr) : nonEmpty ch (q :: ps) = nonEmpty ch [q] ++ nonEmpty ch ps := by
  simp [nonEmpty, ← List.filter_append]

theorem aw_descendLeaf (w : Wld g m.lh C) {o a : Nat} (ha : a ∈ C o) (pt : Int) (fuel : Nat) :
    aw (descendP pt (fuel + 1) (.leaf a)) (fun ps m' => m' = m ∧ ps = nonEmpty (chm g.W m.nl) [.leaf a]) m := by
  simp only [descendP]
  exact aw_bind (aw_chainOf_leaf w ha (aw_pure ⟨rfl, offer_eq _ _⟩))

theorem aw_descendP (w : Wld g m.lh C) (pt : Int) {o : Nat} : ∀ (S : Shape) (fuel : Nat), Held m.nl g.K S →
    (∀ a ∈ S.leaves, a ∈ C o) → S.depth < fuel →
    aw (descendP pt fuel (.inner S.addr)) (fun ps m' => m' = m ∧ ps = nonEmpty (chm g.W m.nl) (visited pt S)) m := by
  intro S
  induction S with
  | bot1 p l h a ka =>
    intro fuel hh hl hf
    obtain ⟨fuel, rfl⟩ : ∃ f, fuel = f + 2 := ⟨fuel - 2, by simp [Shape.depth] at hf; omega⟩
    obtain ⟨c, hp⟩ := held_top1 hh.1
    have hka := hh.2
    have hc : c = chm g.W m.nl (.inner p) := by simp [chm, hp]
    have ha := hl a (by simp [Shape.leaves])
    simp only [Shape.addr, descendP, visited]
    refine aw_bind (aw_readInner hp ?_)
    simp only
    by_cases h1 : pt < l ∨ h ≤ pt
    · rw [if_pos h1, if_pos h1]; exact aw_pure ⟨rfl, rfl⟩
    · rw [if_neg h1, if_neg h1]
      refine aw_bind (aw_leaves (wp_getKey w.sat (w.live ha) ?_))
      rw [hka]
      by_cases h2 : pt < ka
      · rw [if_pos h2, if_pos h2]; exact aw_pure ⟨rfl, by rw [hc]; exact offer_eq _ _⟩
      · rw [if_neg h2, if_neg h2]
        refine aw_bind (aw_ret (aw_bind (aw_mono (aw_descendLeaf w ha pt fuel) ?_)))
        rintro ps m' ⟨rfl, rfl⟩
        exact aw_pure ⟨rfl, by rw [hc, offer_eq]; exact (nonEmpty_cons _ _ _).symm⟩
  | bot2 p l h a ka b kb =>
    intro fuel hh hl hf
    obtain ⟨fuel, rfl⟩ : ∃ f, fuel = f + 2 := ⟨fuel - 2, by simp [Shape.depth] at hf; omega⟩
    obtain ⟨c, hp⟩ := held_top1 hh.1
    have hka := hh.2.1
    have hkb := hh.2.2
    have hc : c = chm g.W m.nl (.inner p) := by simp [chm, hp]
    have ha := hl a (by simp [Shape.leaves])
    have hb := hl b (by simp [Shape.leaves])
    simp only [Shape.addr, descendP, visited]
    refine aw_bind (aw_readInner hp ?_)
    simp only
    by_cases h1 : pt < l ∨ h ≤ pt
    · rw [if_pos h1, if_pos h1]; exact aw_pure ⟨rfl, rfl⟩
    · rw [if_neg h1, if_neg h1]
      refine aw_bind (aw_leaves (wp_getKey w.sat (w.live ha) ?_))
      rw [hka]
      by_cases h2 : pt < ka
      · rw [if_pos h2, if_pos h2]; exact aw_pure ⟨rfl, by rw [hc]; exact offer_eq _ _⟩
      · rw [if_neg h2, if_neg h2]
        simp only [pickLeaf]
        refine aw_bind (aw_bind (aw_leaves (wp_getKey w.sat (w.live hb) (aw_pure ?_))))
        rw [hkb]
        by_cases h3 : kb ≤ pt
        · rw [if_pos h3, if_pos h3]
          refine aw_bind (aw_mono (aw_descendLeaf w hb pt fuel) ?_)
          rintro ps m' ⟨rfl, rfl⟩
          exact aw_pure ⟨rfl, by rw [hc, offer_eq]; exact (nonEmpty_cons _ _ _).symm⟩
        · rw [if_neg h3, if_neg h3]
          refine aw_bind (aw_mono (aw_descendLeaf w ha pt fuel) ?_)
          rintro ps m' ⟨rfl, rfl⟩
          exact aw_pure ⟨rfl, by rw [hc, offer_eq]; exact (nonEmpty_cons _ _ _).symm⟩
  | one p l h t ih =>
    intro fuel hh hl hf
    obtain ⟨fuel, rfl⟩ : ∃ f, fuel = f + 1 := ⟨fuel - 1, by simp [Shape.depth] at hf; omega⟩
    obtain ⟨c, hp⟩ := held_top1 hh.1
    obtain ⟨n, hn, el, eh⟩ := hh.2.top
    have hc : c = chm g.W m.nl (.inner p) := by simp [chm, hp]
    simp only [Shape.addr, descendP, visited]
    refine aw_bind (aw_readInner hp ?_)
    simp only
    by_cases h1 : pt < l ∨ h ≤ pt
    · rw [if_pos h1, if_pos h1]; exact aw_pure ⟨rfl, rfl⟩
    · rw [if_neg h1, if_neg h1]
      refine aw_bind (aw_readInner hn ?_)
      rw [el, eh]
      by_cases h2 : pt < t.low
      · rw [if_pos h2, if_pos h2]; exact aw_pure ⟨rfl, by rw [hc]; exact offer_eq _ _⟩
      · rw [if_neg h2, if_neg h2]
        simp only [Option.getD_none, ite_self]
        refine aw_bind (aw_mono (ih fuel hh.2 hl (by simp [Shape.depth] at hf; omega)) ?_)
        rintro ps m' ⟨rfl, rfl⟩
        exact aw_pure ⟨rfl, by rw [hc, offer_eq]; exact (nonEmpty_cons _ _ _).symm⟩
  | two p l h t u iht ihu =>
    intro fuel hh hl hf
    obtain ⟨fuel, rfl⟩ : ∃ f, fuel = f + 1 := ⟨fuel - 1, by simp [Shape.depth] at hf; omega⟩
    obtain ⟨c, hp⟩ := held_top1 hh.1
    obtain ⟨n, hn, el, eh⟩ := hh.2.1.top
    have hc : c = chm g.W m.nl (.inner p) := by simp [chm, hp]
    simp only [Shape.addr, descendP, visited]
    refine aw_bind (aw_readInner hp ?_)
    simp only
    by_cases h1 : pt < l ∨ h ≤ pt
    · rw [if_pos h1, if_pos h1]; exact aw_pure ⟨rfl, rfl⟩
    · rw [if_neg h1, if_neg h1]
      refine aw_bind (aw_readInner hn ?_)
      rw [el, eh]
      by_cases h2 : pt < t.low
      · rw [if_pos h2, if_pos h2]; exact aw_pure ⟨rfl, by rw [hc]; exact offer_eq _ _⟩
      · rw [if_neg h2, if_neg h2]
        by_cases h3 : t.high ≤ pt
        · rw [if_pos h3, if_pos h3]
          refine aw_bind (aw_mono (ihu fuel hh.2.2 (fun a ha => hl a (by simp [Shape.leaves, ha]))
            (by simp [Shape.depth] at hf; omega)) ?_)
          rintro ps m' ⟨rfl, rfl⟩
          exact aw_pure ⟨rfl, by rw [hc, offer_eq]; exact (nonEmpty_cons _ _ _).symm⟩
        · rw [if_neg h3, if_neg h3]
          refine aw_bind (aw_mono (iht fuel hh.2.1 (fun a ha => hl a (by simp [Shape.leaves, ha]))
            (by simp [Shape.depth] at hf; omega)) ?_)
          rintro ps m' ⟨rfl, rfl⟩
          exact aw_pure ⟨rfl, by rw [hc, offer_eq]; exact (nonEmpty_cons _ _ _).symm⟩

/-! ## Unmarking -/

theorem upd_self {α β : Type} [DecidableEq α] (f : α → β) (a : α) : upd f a (f a) = f := by
  funext x; by_cases e : x = a <;> simp [upd, e]

theorem aw_unmark {o : Nat} {S : Shape} (hl : ∀ a ∈ S.leaves, a ∈ C o) (i : Nat) : ∀ (ps : List Ptr) (m : Mem V) (g : Pic Chain),
    Wld g m.lh C → Held m.nl g.K S → (∀ q ∈ ps, S.Has q) →
    aw (unmark i ps) (fun _ m' => ∃ g', Ch C m g m' g' ∧ chm g'.W m'.nl = rmAll i ps (chm g.W m.nl)) m := by
  intro ps
  induction ps with
  | nil => intro m g w hh _; exact aw_ret ⟨g, Ch.refl w, rfl⟩
  | cons q ps ih =>
    intro m g w hh hps
    have key : ∀ m' g', Ch C m g m' g' → chm g'.W m'.nl = upd (chm g.W m.nl) q ((chm g.W m.nl q).rm i) →
        aw (unmark i ps) (fun _ m' => ∃ g', Ch C m g m' g' ∧ chm g'.W m'.nl = rmAll i (q :: ps) (chm g.W m.nl)) m' := by
      intro m' g' c e
      refine aw_mono (ih m' g' c.wld (c.held hh) fun x hx => hps x (by simp [hx])) ?_
      rintro _ m'' ⟨g'', c', e'⟩
      exact ⟨g'', c.trans c', by rw [e', e]; rfl⟩
    cases q with
    | leaf a =>
      have ha := hl a (hps (.leaf a) (by simp))
      simp only [unmark]
      refine aw_bind (aw_leaves (wp_getVal w.sat (w.live ha) ?_))
      cases e : g.W a with
      | none =>
        refine aw_bind (aw_ret (key m g (Ch.refl w) ?_))
        rw [show (chm g.W m.nl (.leaf a)).rm i = chm g.W m.nl (.leaf a) by simp [chm, e, Chain.rm], upd_self]
      | some c =>
        refine aw_bind (aw_setLeaf w ha _ fun m' g' c' e' => key m' g' c' ?_)
        rw [e']; simp [chm, e, Chain.rm]
    | inner p =>
      obtain ⟨n, hn⟩ := hh.isSome (hps (.inner p) (by simp))
      simp only [unmark]
      refine aw_bind (aw_readInner hn ?_)
      cases e : n.chain with
      | none =>
        refine aw_bind (aw_ret (key m g (Ch.refl w) ?_))
        rw [show (chm g.W m.nl (.inner p)).rm i = chm g.W m.nl (.inner p) by simp [chm, e, hn, Chain.rm], upd_self]
      | some c =>
        refine aw_bind (aw_setInner w hn _ fun m' g' c' e' => key m' g' c' ?_)
        rw [e']; simp [chm, hn, e, Chain.rm]

/-! ## Reading results and checking -/

theorem aw_readChains (w : Wld g m.lh C) :
    ∀ (ps : List Ptr), (∀ q ∈ ps, Rd C m.nl q ∧ (chm g.W m.nl q).list ≠ []) →
    aw (readChains ps) (fun cs m' => m' = m ∧ cs = ps.map fun q => (chm g.W m.nl q).list) m := by
  intro ps
  induction ps with
  | nil => intro _; exact aw_ret ⟨rfl, rfl⟩
  | cons q ps ih =>
    intro h
    have hq := h q (by simp)
    simp only [readChains]
    refine aw_bind (aw_chainOf w hq.1 ?_)
    cases e : chm g.W m.nl q with
    | none => rw [e] at hq; simp [Chain.list] at hq
    | some c =>
      refine aw_bind (aw_mono (ih fun x hx => h x (by simp [hx])) ?_)
      rintro cs m' ⟨rfl, rfl⟩
      exact aw_pure ⟨rfl, by simp [e, Chain.list]⟩

theorem aw_checkTags (w : Wld g m.lh C) (i : Nat) :
    ∀ (ps : List Ptr), (∀ q ∈ ps, Rd C m.nl q ∧ i ∈ (chm g.W m.nl q).list) →
    aw (checkTags i ps) (fun b m' => m' = m ∧ b = true) m := by
  intro ps
  induction ps with
  | nil => intro _; exact aw_ret ⟨rfl, rfl⟩
  | cons q ps ih =>
    intro h
    have hq := h q (by simp)
    simp only [checkTags]
    refine aw_bind (aw_chainOf w hq.1 ?_)
    rw [if_pos (show i ∈ Option.getD (chm g.W m.nl q) [] from hq.2)]
    exact ih fun x hx => h x (by simp [hx])

theorem aw_checkAllTags (w : Wld g m.lh C) :
    ∀ (ts : List (Nat × List Ptr)), (∀ t ∈ ts, ∀ q ∈ t.2, Rd C m.nl q ∧ t.1 ∈ (chm g.W m.nl q).list) →
    aw (checkAllTags ts) (fun b m' => m' = m ∧ b = true) m := by
  intro ts
  induction ts with
  | nil => intro _; exact aw_ret ⟨rfl, rfl⟩
  | cons t ts ih =>
    intro h
    obtain ⟨i, ps⟩ := t
    simp only [checkAllTags]
    refine aw_bind (aw_mono (aw_checkTags w i ps (h (i, ps) (by simp))) ?_)
    rintro b m' ⟨rfl, rfl⟩
    exact ih fun x hx => h x (by simp [hx])

theorem aw_readStore (store : List (Seg V)) : ∀ (is : List Nat) (segs : List (Seg V)), is.mapM (store[·]?) = some segs →
    aw (readStore store is) (fun r m' => m' = m ∧ r = segs) m := by
  intro is
  induction is with
  | nil => intro segs h; simp at h; subst h; exact aw_ret ⟨rfl, rfl⟩
  | cons i is ih =>
    intro segs h
    simp only [List.mapM_cons, Option.bind_eq_bind, Option.bind_eq_some_iff, Option.pure_def, Option.some.injEq] at h
    obtain ⟨s, hs, ss, hss, rfl⟩ := h
    simp only [readStore, hs]
    refine aw_bind (aw_mono (ih ss hss) ?_)
    rintro r m' ⟨rfl, rfl⟩
    exact aw_pure ⟨rfl, rfl⟩

end Mdds.SegTree.Mem
