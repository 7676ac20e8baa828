import Verif.SegTree.HeapMark
import Verif.FST.TreeHeapSpec
import Verif.FST.HeapProps

/-!
# Searching nodes is searching lists
-/
namespace Mdds.FST.Pool

open Mdds.FST.Mem (Wld Pic slot wp wp_bind wp_get wp_getKey wp_getVal wp_getNext wp_getPrev wp_nonnull wp_ret wp_pure upd
  wp_loopBound wp_insPosP keyAt)
open Mdds.SegTree.Mem (Shape Held aw aw_bind aw_pure aw_ret aw_leaves aw_getObj aw_readInner aw_mono strip bottomsS pairUpS buildUpS buildS
  onLeaves)

variable {V : Type}

/-! ## The tree as a value -/

/-- The tree of `Model.lean`, whose leaves are numbered from `i`. -/
def tshape : Nat → Shape → FST.Tree
  | i, .bot1 _ l h _ _ => .bottom l h i none
  | i, .bot2 _ l h _ _ _ _ => .bottom l h i (some (i + 1))
  | i, .one _ l h s => .inner1 l h (tshape i s)
  | i, .two _ l h s t => .inner2 l h (tshape i s) (tshape (i + s.leaves.length) t)

def tshapes : Nat → List Shape → List FST.Tree
  | _, [] => []
  | i, s :: ss => tshape i s :: tshapes (i + s.leaves.length) ss

@[simp] theorem tshape_low (i : Nat) (S : Shape) : (tshape i S).low = S.low := by cases S <;> rfl
@[simp] theorem tshape_high (i : Nat) (S : Shape) : (tshape i S).high = S.high := by cases S <;> rfl

theorem tshapes_length (i : Nat) (Ss : List Shape) : (tshapes i Ss).length = Ss.length := by
  induction Ss generalizing i with
  | nil => rfl
  | cons s ss ih => simp [tshapes, ih]

theorem tshapes_bottomsS (base : Nat) (k : Nat) (xs : List (Nat × Int)) : ∀ i,
    tshapes i (bottomsS base k xs) = buildBottom i (xs.map Prod.snd) := by
  fun_induction bottomsS base k xs with
  | case1 => intro i; rfl
  | case2 => intro i; rfl
  | case3 => intro i; rfl
  | case4 k a b c rest ih =>
    intro i
    simp only [tshapes, tshape, List.map_cons, buildBottom, Shape.leaves, List.length_cons, List.length_nil]
    rw [ih (i + 2)]
    rfl

theorem tshapes_pairUpS (base : Nat) (k : Nat) (Ss : List Shape) : ∀ i,
    tshapes i (pairUpS base k Ss) = pairUp (tshapes i Ss) := by
  fun_induction pairUpS base k Ss with
  | case1 => intro i; rfl
  | case2 k s => intro i; simp [tshapes, tshape, pairUp, mkInner1]
  | case3 k s t rest ih =>
    intro i
    simp only [tshapes, tshape, pairUp, mkInner2, Shape.leaves, List.length_append, tshape_low, tshape_high]
    rw [ih, Nat.add_assoc]

theorem tshape_buildUpS (base : Nat) (i : Nat) : ∀ (n k : Nat) (Ss : List Shape),
    (buildUpS base n k Ss).map (tshape i) = buildUpN n (tshapes i Ss) := by
  intro n
  induction n with
  | zero => intro k Ss; match Ss with
    | [] => rfl
    | [s] => rfl
    | a :: b :: rest => rfl
  | succ n ih => intro k Ss; match Ss with
    | [] => rfl
    | [s] => rfl
    | a :: b :: rest =>
      simp only [buildUpS]
      rw [ih, tshapes_pairUpS]
      rfl

/-- What the tree builder makes in memory is what it makes of the list of keys. -/
theorem tshape_buildS (base : Nat) (xs : List (Nat × Int)) :
    (buildS base xs).map (tshape 0) = buildTreeOf (xs.map Prod.snd) := by
  unfold buildS buildTreeOf buildUp
  rw [tshape_buildUpS, ← tshapes_bottomsS base 0 xs 0, tshapes_length]

/-! ## Descending -/

variable {g : Pic V} {C : Nat → List Nat} {m : Mem V}

/-- Node number `i` of the list has address `a`. -/
theorem leaf_at {as : List Nat} {i a : Nat} (h : as[i]? = some a) : (as.map g.D)[i]? = some (g.K a, g.W a) := by
  simp [h, Mdds.FST.Mem.Pic.D]

theorem aw_descendP (w : Wld g m.lh C) {o : Nat} (key : Int) : ∀ (S : Shape) (i fuel : Nat) (r : Option Nat), Held m.nl g.K S →
    (∀ j a, S.leaves[j]? = some a → (C o)[i + j]? = some a) → S.depth ≤ fuel →
    descend ((C o).map g.D) key (tshape i S) = .ok r →
    aw (descendP key fuel S.addr) (fun x m' => m' = m ∧ x = r.bind ((C o)[·]?)) m := by
  intro S
  induction S with
  | bot1 p l h a ka => intro i fuel r _ _ _ hd; simp [tshape, descend] at hd
  | bot2 p l h a ka b kb =>
    intro i fuel r hh hl hf hd
    obtain ⟨fuel, rfl⟩ : ∃ f, fuel = f + 1 := ⟨fuel - 1, by simp [Shape.depth] at hf; omega⟩
    obtain ⟨c, hp⟩ := Mdds.SegTree.Mem.held_top1 hh.1
    have ha : (C o)[i]? = some a := hl 0 a rfl
    have hb : (C o)[i + 1]? = some b := hl 1 b rfl
    have hla := w.live (o := o) (List.mem_of_getElem? ha)
    have hlb := w.live (o := o) (List.mem_of_getElem? hb)
    simp only [Shape.addr, descendP]
    refine aw_bind (aw_readInner hp ?_)
    simp only [pickP]
    refine aw_bind (aw_leaves (wp_getKey w.sat hla (aw_bind (aw_leaves (wp_getKey w.sat hlb (aw_pure ⟨rfl, ?_⟩))))))
    simp only [tshape, descend, leaf_at ha, leaf_at hb] at hd
    split at hd
    · rename_i h1; rw [if_pos h1]; cases hd; exact ha.symm
    · rename_i h1
      rw [if_neg h1]
      split at hd
      · rename_i h2; rw [if_pos h2]; cases hd; exact hb.symm
      · rename_i h2; rw [if_neg h2]; cases hd; rfl
  | one p l h s ih =>
    intro i fuel r hh hl hf hd
    obtain ⟨fuel, rfl⟩ : ∃ f, fuel = f + 1 := ⟨fuel - 1, by simp [Shape.depth] at hf; omega⟩
    obtain ⟨c, hp⟩ := Mdds.SegTree.Mem.held_top1 hh.1
    obtain ⟨ns, hns, hlo, hhi⟩ := hh.2.top
    simp only [Shape.addr, descendP]
    refine aw_bind (aw_readInner hp (aw_bind (aw_readInner hns ?_)))
    rw [hlo, hhi]
    simp only [tshape, descend, tshape_low, tshape_high] at hd
    split at hd
    · rename_i h1
      rw [if_pos h1]
      exact ih i fuel r hh.2 hl (by simp [Shape.depth] at hf; omega) hd
    · rename_i h1
      rw [if_neg h1]
      cases hd
      exact aw_pure ⟨rfl, rfl⟩
  | two p l h s t ihs iht =>
    intro i fuel r hh hl hf hd
    obtain ⟨fuel, rfl⟩ : ∃ f, fuel = f + 1 := ⟨fuel - 1, by simp [Shape.depth] at hf; omega⟩
    obtain ⟨c, hp⟩ := Mdds.SegTree.Mem.held_top1 hh.1
    obtain ⟨ns, hns, hlo, hhi⟩ := hh.2.1.top
    obtain ⟨nt, hnt, hlo', hhi'⟩ := hh.2.2.top
    simp only [Shape.addr, descendP]
    refine aw_bind (aw_readInner hp (aw_bind (aw_readInner hns ?_)))
    rw [hlo, hhi]
    simp only [tshape, descend, tshape_low, tshape_high] at hd
    split at hd
    · rename_i h1
      rw [if_pos h1]
      refine ihs i fuel r hh.2.1 (fun j a hj => hl j a ?_) (by simp [Shape.depth] at hf; omega) hd
      simp only [Shape.leaves]
      rw [List.getElem?_append_left (List.getElem?_eq_some_iff.1 hj).1]
      exact hj
    · rename_i h1
      rw [if_neg h1]
      refine aw_bind (aw_readInner hnt ?_)
      rw [hlo', hhi']
      split at hd
      · rename_i h2
        rw [if_pos h2]
        refine iht (i + s.leaves.length) fuel r hh.2.2 (fun j a hj => ?_) (by simp [Shape.depth] at hf; omega) hd
        rw [Nat.add_assoc]
        refine hl _ a ?_
        simp only [Shape.leaves]
        rw [List.getElem?_append_right (by omega), Nat.add_sub_cancel_left]
        exact hj
      · rename_i h2
        rw [if_neg h2]
        cases hd
        exact aw_pure ⟨rfl, rfl⟩

/-! ## The segment at a key -/

theorem segmentAt_located {key : Int} : ∀ {ls : List (Leaf V)} {i j : Nat} {a b : Leaf V}, Sorted ls → ls[j]? = some a → ls[j + 1]? = some b →
    a.1 ≤ key → key < b.1 → segmentAt key i ls = some ⟨i + j, a.2, a.1, b.1⟩ := by
  intro ls
  induction ls with
  | nil => intro i j a b _ h; simp at h
  | cons c t ih =>
    intro i j a b hs ha hb h1 h2
    cases t with
    | nil => simp at hb
    | cons d t =>
      cases j with
      | zero =>
        simp at ha hb
        subst ha; subst hb
        simp only [segmentAt]
        rw [if_pos ⟨h1, h2⟩]; rfl
      | succ j =>
        have hs' := hs
        simp only [List.getElem?_cons_succ] at ha hb
        have hdk : d.1 ≤ a.1 := by
          cases j with
          | zero => simp at ha; subst ha; exact Int.le_refl _
          | succ j => exact Int.le_of_lt (sorted_idx_lt hs (i := 1) (j := j + 2) (by simp) (by simpa using ha) (by omega))
        simp only [segmentAt]
        rw [if_neg (by omega), ih hs.tail ha hb h1 h2]
        simp only [Option.some.injEq, Hit.mk.injEq, and_true]
        omega

theorem segmentAt_outside {key : Int} : ∀ {ls : List (Leaf V)} {i : Nat}, (∀ a ∈ ls, key < a.1) ∨ (∀ a ∈ ls, a.1 ≤ key) →
    segmentAt key i ls = none := by
  intro ls
  induction ls with
  | nil => intro i _; rfl
  | cons c t ih =>
    intro i h
    cases t with
    | nil => rfl
    | cons d t =>
      simp only [segmentAt]
      rw [if_neg, ih]
      · rcases h with h | h
        · exact .inl fun a ha => h a (by simp [ha])
        · exact .inr fun a ha => h a (by simp [ha])
      · rintro ⟨h1, h2⟩
        rcases h with h | h
        · have := h c (by simp); omega
        · have := h d (by simp); omega

theorem segmentAt_wf {lo hi key : Int} {dv : V} {ls : List (Leaf V)} (w : WF lo hi dv ls) :
    (lo ≤ key ∧ key < hi ∧ ∃ j a b, ls[j]? = some a ∧ ls[j + 1]? = some b ∧ a.1 ≤ key ∧ key < b.1 ∧
      segmentAt key 0 ls = some ⟨j, a.2, a.1, b.1⟩) ∨ ((key < lo ∨ hi ≤ key) ∧ segmentAt key 0 ls = none) := by
  by_cases hr : lo ≤ key ∧ key < hi
  · obtain ⟨j, a, b, ha, hb, h1, h2⟩ := w.locate hr.1 hr.2
    have := segmentAt_located (i := 0) w.sorted ha hb h1 h2
    rw [Nat.zero_add] at this
    exact .inl ⟨hr.1, hr.2, j, a, b, ha, hb, h1, h2, this⟩
  · refine .inr ⟨by omega, segmentAt_outside ?_⟩
    rcases (by omega : key < lo ∨ hi ≤ key) with h | h
    · exact .inl fun a ha => by have := w.lo_le a ha; omega
    · exact .inr fun a ha => by have := w.le_hi a ha; omega

/-! ## The tree in memory -/

/-- The search tree of a container whose leaves are at the addresses `as`. -/
def TreeAt (K : Nat → Int) (nl : Nat → Option Mdds.SegTree.Mem.Inner) (as : List Nat) (t : Tree) : Prop :=
  2 ≤ as.length ∧ t.size = Mdds.SegTree.Mem.needed as.length ∧
    ∃ S, buildS t.base (as.map fun a => (a, K a)) = some S ∧ Held nl K S ∧ t.root = some S.addr

/-- The address belongs to the pool. -/
def inPool (t : Tree) (p : Nat) : Prop := t.base ≤ p ∧ p < t.base + t.size

theorem TreeAt.congr {K K' : Nat → Int} {nl nl' : Nat → Option Mdds.SegTree.Mem.Inner} {as : List Nat} {t : Tree} (h : TreeAt K nl as t)
    (hK : ∀ a ∈ as, K' a = K a) (hn : ∀ p, inPool t p → nl' p = nl p) : TreeAt K' nl' as t := by
  obtain ⟨h2, hsz, S, hS, hh, hr⟩ := h
  have e : (as.map fun a => (a, K' a)) = as.map fun a => (a, K a) := List.map_congr_left fun a ha => by rw [hK a ha]
  obtain ⟨S', hS', hl, hp⟩ := Mdds.SegTree.Mem.buildS_ok t.base (as.map fun a => (a, K a)) (by simpa using h2)
  rw [hS] at hS'; cases hS'
  refine ⟨h2, hsz, S, by rw [e]; exact hS, hh.congr (fun p hp' => ?_) (fun a ha => hK a ?_), hr⟩
  · have := hp.subset hp'
    rw [List.mem_range'_1, List.length_map, ← hsz] at this
    rw [hn p this]
  · rw [hl] at ha; simpa using ha

theorem wp_boundsP {h : Mdds.FST.Mem.Heap V} (w : Wld g h C) {o : Nat} {lo hi : Int} {dv : V} (wf : WF lo hi dv ((C o).map g.D))
    {Q : Int × Int → Mdds.FST.Mem.Heap V → Prop} (q : Q (lo, hi) h) : wp (boundsP o) Q h := by
  unfold boundsP
  have h1 := wf.first
  have h2 := wf.last
  rw [List.head?_map] at h1
  rw [List.getLast?_map] at h2
  cases hl : (C o).head? with
  | none => rw [hl] at h1; simp at h1
  | some a =>
    cases hr : (C o).getLast? with
    | none => rw [hr] at h2; simp at h2
    | some b =>
      rw [hl] at h1
      rw [hr] at h2
      have e1 : g.K a = lo := by simpa [Mdds.FST.Mem.Pic.D] using h1
      have e2 : g.K b = hi := by simp [Mdds.FST.Mem.Pic.D] at h2; exact h2.1
      have la := w.live (List.mem_of_head? hl)
      have lb := w.live (List.mem_of_getLast? hr)
      refine wp_bind (wp_get w.sat (wp_bind (wp_nonnull (by rw [w.left, hl]) (wp_bind (wp_getKey w.sat la ?_)))))
      refine wp_bind (wp_get w.sat (wp_bind (wp_nonnull (by rw [w.right, hr]) (wp_bind (wp_getKey w.sat lb (wp_pure ?_))))))
      rw [e1, e2]; exact q

/-- `search_tree_for_leaf_node` with a valid tree. -/
theorem aw_treeLeafP (w : Wld g m.lh C) {o : Nat} {t : Tree} (ho : m.obj o = some t) (hv : t.valid = true)
    (ht : TreeAt g.K m.nl (C o) t) {lo hi : Int} {dv : V} (wf : WF lo hi dv ((C o).map g.D)) (key : Int) :
    aw (treeLeafP o key) (fun r m' => m' = m ∧ r = (segmentAt key 0 ((C o).map g.D)).bind fun h => (C o)[h.idx]?) m := by
  obtain ⟨h2, hsz, S, hS, hh, hr⟩ := ht
  unfold treeLeafP
  refine aw_bind (aw_getObj ho ?_)
  rw [hr, hv]
  refine aw_bind (aw_leaves (wp_boundsP w wf ?_))
  simp only
  rcases segmentAt_wf (key := key) wf with ⟨hlo, hhi, j, a, b, ha, hb, h3, h4, e⟩ | ⟨hout, e⟩
  · rw [if_neg (by omega), e]
    obtain ⟨S', hS', hl, hp⟩ := Mdds.SegTree.Mem.buildS_ok t.base ((C o).map fun a => (a, g.K a)) (by simpa using h2)
    rw [hS] at hS'; cases hS'
    have hks : (((C o).map fun a => (a, g.K a)).map Prod.snd) = ((C o).map g.D).map (·.1) := by
      simp [Mdds.FST.Mem.Pic.D, Function.comp_def]
    have htree : buildTreeOf (((C o).map g.D).map (·.1)) = some (tshape 0 S) := by
      rw [← hks, ← tshape_buildS t.base, hS]; rfl
    have hne : ((C o).map g.D).map (·.1) ≠ [] := by
      intro h; have := congrArg List.length h; simp at this; rw [this] at h2; simp at h2
    obtain ⟨t', ht', hg⟩ := buildTreeOf_good _ hne
    rw [htree] at ht'; cases ht'
    have hf := hg.facts
    have hlow : (tshape 0 S).low = lo := by
      have := hf.2.2.1
      rw [← List.head?_eq_getElem?, List.head?_map, wf.first] at this
      simpa using this.symm
    have hhigh : (tshape 0 S).high = hi := by
      have h3 := hf.2.2.2
      rw [Nat.min_eq_right (by omega)] at h3
      rw [← List.getLast?_eq_getElem?, List.getLast?_map, wf.last] at h3
      simpa using h3.symm
    have hd := descend_good wf.sorted ha hb h3 h4 hg (by omega) (by omega)
    refine aw_descendP w key S 0 t.size _ hh (fun i x hx => ?_) ?_ hd
    · rw [hl] at hx; simpa using hx
    · have := S.depth_le
      have hlen := hp.length_eq
      simp at hlen
      omega
  · rw [if_pos hout, e]
    exact aw_pure ⟨rfl, rfl⟩

theorem split_at {as : List Nat} {j a : Nat} (ha : as[j]? = some a) : as = as.take j ++ a :: as.drop (j + 1) := by
  obtain ⟨hj, rfl⟩ := List.getElem?_eq_some_iff.1 ha
  simp

theorem next_at {h : Mdds.FST.Mem.Heap V} (w : Wld g h C) {o j a : Nat} (ha : (C o)[j]? = some a) : g.N a = (C o)[j + 1]? := by
  rw [(w.st o).next_eq (split_at ha), List.head?_drop]

theorem prev_at {h : Mdds.FST.Mem.Heap V} (w : Wld g h C) {o j a : Nat} (ha : (C o)[j]? = some a) :
    g.P a = if j = 0 then none else (C o)[j - 1]? := by
  rw [(w.st o).prev_eq (split_at ha)]
  have := (List.getElem?_eq_some_iff.1 ha).1
  cases j with
  | zero => simp
  | succ j =>
    rw [if_neg (by omega), List.getLast?_take, if_neg (by omega)]
    have hj : j < (C o).length := by omega
    simp [List.getElem?_eq_getElem hj]

theorem of_leaf_at {as : List Nat} {j : Nat} {l : Leaf V} (h : (as.map g.D)[j]? = some l) :
    ∃ a, as[j]? = some a ∧ g.K a = l.1 ∧ g.W a = l.2 := by
  rw [List.getElem?_map] at h
  obtain ⟨a, e, rfl⟩ := Option.map_eq_some_iff.1 h
  exact ⟨a, e, rfl, rfl⟩

theorem wp_reportP {h : Mdds.FST.Mem.Heap V} (w : Wld g h C) {o j : Nat} {l r : Leaf V} {a : Nat} (ha : (C o)[j]? = some a)
    (hl : ((C o).map g.D)[j]? = some l) (hr : ((C o).map g.D)[j + 1]? = some r) {Q : V × Int × Int → Mdds.FST.Mem.Heap V → Prop}
    (q : Q (l.2, l.1, r.1) h) : wp (reportP o a) Q h := by
  obtain ⟨a', ha', k1, w1⟩ := of_leaf_at hl
  rw [ha] at ha'; cases ha'
  obtain ⟨b, hb, k2, w2⟩ := of_leaf_at hr
  have la := w.live (List.mem_of_getElem? ha)
  have lb := w.live (List.mem_of_getElem? hb)
  unfold reportP
  refine wp_bind (wp_getVal w.sat la (wp_bind (wp_getKey w.sat la (wp_bind (wp_getNext w.sat la ?_)))))
  rw [next_at w ha, hb]
  refine wp_bind (wp_getKey w.sat lb (wp_pure ?_))
  rw [k1, k2, w1]; exact q

/-- `search_impl` is what it is on lists. -/
theorem wp_searchImplP {h : Mdds.FST.Mem.Heap V} (w : Wld g h C) {o : Nat} (key : Int) {p a : Nat} (ha : (C o)[p]? = some a)
    {r : Option (Hit V)} (hr : searchImpl ((C o).map g.D) p key = .ok r) {Q : Option (Nat × V × Int × Int) → Mdds.FST.Mem.Heap V → Prop}
    (q : ∀ x, (r = none → x = none) → (∀ ht, r = some ht → ∃ b, (C o)[ht.idx]? = some b ∧ x = some (b, ht.value, ht.start, ht.stop)) → Q x h) :
    wp (searchImplP key a) Q h := by
  have la := w.live (List.mem_of_getElem? ha)
  unfold searchImplP
  refine wp_bind (wp_getKey w.sat la ?_)
  simp only [searchImpl, leaf_at ha] at hr
  by_cases hk : g.K a = key
  · rw [if_pos hk] at hr ⊢
    cases hn : ((C o).map g.D)[p + 1]? with
    | none => rw [hn] at hr; cases hr
    | some nx =>
      rw [hn] at hr
      cases hr
      obtain ⟨b, hb, kb, wb⟩ := of_leaf_at hn
      have lb := w.live (List.mem_of_getElem? hb)
      refine wp_bind (wp_getVal w.sat la (wp_bind (wp_getNext w.sat la (wp_bind (wp_nonnull ((next_at w ha).trans hb)
        (wp_bind (wp_getKey w.sat lb (wp_pure ?_))))))))
      refine q _ (by simp) fun ht e => ?_
      cases e
      exact ⟨a, ha, by rw [kb]⟩
  · rw [if_neg hk] at hr ⊢
    refine wp_bind (wp_getPrev w.sat la ?_)
    rw [prev_at w ha]
    by_cases h0 : p = 0
    · simp only [h0, if_true] at hr ⊢
      cases hr
      exact wp_pure (q _ (fun _ => rfl) (fun ht e => by cases e))
    · simp only [h0, if_false] at hr ⊢
      obtain ⟨hp, -⟩ := List.getElem?_eq_some_iff.1 ha
      have hb : (C o)[p - 1]? = some (C o)[p - 1] := List.getElem?_eq_getElem (by omega)
      generalize (C o)[p - 1] = b at hb
      have lb := w.live (List.mem_of_getElem? hb)
      rw [leaf_at hb] at hr
      rw [hb]
      simp only at hr ⊢
      refine wp_bind (wp_getKey w.sat lb ?_)
      by_cases hlt : g.K b < key
      · rw [if_pos hlt] at hr ⊢
        cases hr
        refine wp_bind (wp_getVal w.sat lb (wp_pure (q _ (by simp) fun ht e => ?_)))
        cases e
        exact ⟨b, hb, rfl⟩
      · rw [if_neg hlt] at hr ⊢
        cases hr
        exact wp_pure (q _ (fun _ => rfl) (fun ht e => by cases e))

/-- `search`, with a position or without. -/
theorem wp_searchP {h : Mdds.FST.Mem.Heap V} (w : Wld g h C) {o : Nat} {lo hi : Int} {dv : V} (wf : WF lo hi dv ((C o).map g.D)) (key : Int)
    {p : Option Nat} (hp : ∀ a, p = some a → ∃ j : Nat, (C o)[j]? = some a) {Q : Option (Nat × V × Int × Int) → Mdds.FST.Mem.Heap V → Prop}
    (q : ∀ x, (segmentAt key 0 ((C o).map g.D) = none → x = none) → (∀ ht, segmentAt key 0 ((C o).map g.D) = some ht →
      ∃ b, (C o)[ht.idx]? = some b ∧ x = some (b, ht.value, ht.start, ht.stop)) → Q x h) :
    wp (searchP o key p) Q h := by
  unfold searchP
  refine wp_bind (wp_boundsP w wf ?_)
  simp only
  rcases segmentAt_wf (key := key) wf with ⟨hlo, hhi, j, a, b, ha, hb, h3, h4, e⟩ | ⟨hout, e⟩
  · rw [if_neg (by omega)]
    refine wp_bind (wp_get w.sat ?_)
    rw [w.left]
    -- the search starts at a node at or before the segment
    suffices hs : ∀ i, i ≤ j → wp (do
        let q ← Mdds.FST.Mem.insPosP key (← Mdds.FST.Mem.loopBound) ((C o).drop i).head?
        searchImplP key (← Mdds.FST.Mem.nonnull q)) Q h by
      cases p with
      | none => exact wp_bind (wp_ret (by simpa using hs 0 (by omega)))
      | some a' =>
        obtain ⟨i, hi⟩ := hp a' rfl
        have la := w.live (List.mem_of_getElem? hi)
        refine wp_bind (wp_bind (wp_getKey w.sat la (wp_pure ?_)))
        by_cases hk : key < g.K a'
        · rw [if_pos hk]; simpa using hs 0 (by omega)
        · rw [if_neg hk]
          have := hs i ?_
          · rw [List.head?_drop, hi] at this; exact this
          · by_contra hc
            have hx := leaf_at (g := g) hi
            rcases Nat.lt_or_ge (j + 1) i with hlt | hge
            · have := sorted_idx_lt wf.sorted hb hx hlt; simp at this; omega
            · have : i = j + 1 := by omega
              subst this; rw [hb] at hx; cases hx; simp at h4; omega
    intro i hi
    have hpd : Mdds.FST.Mem.Path g.N ((C o).drop i) none := by
      have := w.fwd o
      rw [← List.take_append_drop i (C o), Mdds.FST.Mem.path_append] at this
      exact this.2
    refine wp_bind (wp_loopBound w.sat (wp_bind ?_))
    refine wp_insPosP w.sat key _ hpd (fun a ha => w.live (List.mem_of_mem_drop (List.mem_of_head? ha))) _
      (by have := (w.st o).length_le; simp; omega) ?_
    rw [Mdds.FST.Mem.find_insPos, insPos_located wf.sorted ha hb h3 h4 hi]
    have hr := searchImpl_located wf.sorted ha hb h3 h4
    generalize hx : (if a.1 = key then j else j + 1) = x at hr ⊢
    have hxl : x < (C o).length := by
      have := (List.getElem?_eq_some_iff.1 hb).1
      simp at this
      split at hx <;> omega
    refine wp_bind (wp_nonnull (List.getElem?_eq_getElem hxl) ?_)
    refine wp_searchImplP w key (List.getElem?_eq_getElem hxl) hr fun y hy1 hy2 => q y ?_ ?_
    · rw [e]; simp
    · rw [e]; exact hy2
  · rw [if_pos hout]
    exact wp_pure (q _ (fun _ => rfl) (fun ht h => by rw [e] at h; cases h))

end Mdds.FST.Pool
