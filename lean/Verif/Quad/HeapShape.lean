import Verif.Quad.HeapRC
/-!
Trees in the `point_quad_tree` heap when parent pointers may be wrong and lost nodes may lie around.
-/
namespace Mdds.Quad

variable {V : Type}

/-- The heap step agrees with the step of the model in `Model.lean`: where the latter returns the former does and the results
are related by `Q`; where it throws the former throws the same. -/
def Ref {α β : Type} (r : Outcome α) (p : Outcome β) (Q : α → β → Prop) : Prop :=
  match p with
  | .ok b => ∃ a, r = .ok a ∧ Q a b
  | .err e => r = .err e
  | .ub => True

theorem Ref.bind {α β γ δ : Type} {r : Outcome α} {p : Outcome β} {Q : α → β → Prop} {f : α → Outcome γ} {g : β → Outcome δ}
    {Q' : γ → δ → Prop} (h : Ref r p Q) (hf : ∀ a b, Q a b → Ref (f a) (g b) Q') : Ref (r.bind f) (p.bind g) Q' := by
  cases p with
  | ok b =>
    obtain ⟨a, rfl, hq⟩ := h
    exact hf a b hq
  | err e =>
    have h' : r = .err e := h
    subst h'; rfl
  | ub => trivial

theorem Ref.mono {α β : Type} {r : Outcome α} {p : Outcome β} {Q Q' : α → β → Prop} (h : Ref r p Q) (hq : ∀ a b, Q a b → Q' a b) :
    Ref r p Q' := by
  cases p with
  | ok b => obtain ⟨a, e, h⟩ := h; exact ⟨a, e, hq a b h⟩
  | err e => exact h
  | ub => trivial

/-- Tree with four children given by a function. -/
def mk (x y : Int) (d : V) (ok : Bool) (k : Quadrant → Tree V) : Tree V := .node x y d ok (k .ne) (k .nw) (k .se) (k .sw)

/-- Replace the value at one quadrant. -/
def updQ {α : Type} (k : Quadrant → α) (q : Quadrant) (t : α) : Quadrant → α := fun r => if r = q then t else k r

@[simp] theorem updQ_same {α : Type} (k : Quadrant → α) (q : Quadrant) (t : α) : updQ k q t q = t := if_pos rfl
theorem updQ_ne {α : Type} (k : Quadrant → α) {q r : Quadrant} (t : α) (h : r ≠ q) : updQ k q t r = k r := if_neg h
theorem updQ_map {α β : Type} (f : α → β) (k : Quadrant → α) (q : Quadrant) (t : α) : (fun r => f (updQ k q t r)) = updQ (fun r => f (k r)) q (f t) := by
  funext r; simp only [updQ]; split <;> rfl

/-- Nodes below a pointer with their addresses and the flag of the model. -/
inductive AT (V : Type) where
  | nil
  | node (a : Nat) (x y : Int) (d : V) (ok : Bool) (kids : Quadrant → AT V)

namespace AT

/-- Pointer to the root. -/
def root : AT V → Option Nat
  | nil => none
  | node a .. => some a

/-- Height. -/
def depth : AT V → Nat
  | nil => 0
  | node _ _ _ _ _ kids => 1 + max (max (depth (kids .ne)) (depth (kids .nw))) (max (depth (kids .se)) (depth (kids .sw)))

/-- All addresses. -/
def ids : AT V → List Nat
  | nil => []
  | node a _ _ _ _ kids => a :: (ids (kids .ne) ++ ids (kids .nw) ++ ids (kids .se) ++ ids (kids .sw))

/-- How often an address occurs. -/
def cnt : AT V → Nat → Nat
  | nil, _ => 0
  | node a _ _ _ _ kids, b => (if b = a then 1 else 0) + (cnt (kids .ne) b + cnt (kids .nw) b + cnt (kids .se) b + cnt (kids .sw) b)

/-- The tree of `Model.lean`. -/
def tree : AT V → Tree V
  | nil => .nil
  | node _ x y d ok kids => mk x y d ok fun q => tree (kids q)

/-- How often an address occurs in the children. -/
def cntK (kids : Quadrant → AT V) (b : Nat) : Nat := cnt (kids .ne) b + cnt (kids .nw) b + cnt (kids .se) b + cnt (kids .sw) b

theorem cnt_node (a : Nat) (x y : Int) (d : V) (ok : Bool) (kids : Quadrant → AT V) (b : Nat) :
    cnt (node a x y d ok kids) b = (if b = a then 1 else 0) + cntK kids b := rfl

theorem cnt_le (kids : Quadrant → AT V) (q : Quadrant) (b : Nat) : cnt (kids q) b ≤ cntK kids b := by
  cases q <;> simp only [cntK] <;> omega

theorem cnt_le2 (kids : Quadrant → AT V) {q r : Quadrant} (h : q ≠ r) (b : Nat) : cnt (kids q) b + cnt (kids r) b ≤ cntK kids b := by
  cases q <;> cases r <;> simp only [cntK] <;> first | exact absurd rfl h | omega

theorem cntK_upd (kids : Quadrant → AT V) (q : Quadrant) (t : AT V) (b : Nat) :
    cntK (updQ kids q t) b + cnt (kids q) b = cntK kids b + cnt t b := by
  cases q <;> simp [cntK, updQ] <;> omega

theorem cntK_pos {kids : Quadrant → AT V} {b : Nat} (h : 0 < cntK kids b) : ∃ q, 0 < cnt (kids q) b := by
  simp only [cntK] at h
  by_cases h1 : 0 < cnt (kids .ne) b
  · exact ⟨_, h1⟩
  · by_cases h2 : 0 < cnt (kids .nw) b
    · exact ⟨_, h2⟩
    · by_cases h3 : 0 < cnt (kids .se) b
      · exact ⟨_, h3⟩
      · exact ⟨.sw, by omega⟩

theorem count_ids (t : AT V) (b : Nat) : t.ids.count b = t.cnt b := by
  induction t with
  | nil => rfl
  | node a x y d ok kids ih =>
    simp only [ids, cnt, List.count_cons, List.count_append, ih, beq_iff_eq]
    by_cases h : a = b
    · subst h; simp; omega
    · have : ¬ b = a := fun e => h e.symm
      simp [h, this]

theorem root_pos {t : AT V} {a : Nat} (h : t.root = some a) : 0 < t.cnt a := by
  cases t with
  | nil => cases h
  | node b x y d ok kids => cases h; simp only [cnt, if_true]; omega

theorem root_none {t : AT V} (h : t.root = none) : t = nil := by
  cases t with
  | nil => rfl
  | node => cases h

theorem depth_kid (a : Nat) (x y : Int) (d : V) (ok : Bool) (kids : Quadrant → AT V) (q : Quadrant) :
    (kids q).depth + 1 ≤ (node a x y d ok kids).depth := by
  cases q <;> simp only [depth] <;> omega

theorem depth_le_ids (t : AT V) : t.depth ≤ t.ids.length := by
  induction t with
  | nil => exact Nat.le_refl _
  | node a x y d ok kids ih =>
    have h1 := ih .ne; have h2 := ih .nw; have h3 := ih .se; have h4 := ih .sw
    simp only [depth, ids, List.length_cons, List.length_append]
    omega

theorem depth_le {t : AT V} {n : Nat} (h : ∀ b, t.cnt b ≤ 1) (hlt : ∀ b, 0 < t.cnt b → b < n) : t.depth ≤ n := by
  have hs : t.ids.Subperm (List.range n) := by
    refine List.subperm_of_subset (List.nodup_iff_count_le_one.2 fun b => by rw [count_ids]; exact h b) (fun b hb => List.mem_range.2 (hlt b ?_))
    rw [← count_ids]; exact List.count_pos_iff.2 hb
  have := hs.length_le
  rw [List.length_range] at this
  exact Nat.le_trans (depth_le_ids t) this

end AT

open AT

/-- The parent pointer of the root of a subtree: right if the flag says so, otherwise it leads to the node itself or to a lost
node (one that does not satisfy `I`). -/
def Lk (I : Nat → Prop) (m : Mem V) (p : Option Nat) : AT V → Prop
  | nil => True
  | node a _ _ _ ok _ => ∃ c, m.cell a = some c ∧ (ok = true → c.par = p) ∧ (ok = false → ∃ b, c.par = some b ∧ (b = a ∨ ¬ I b))

/-- The tree lies in the heap. -/
def Sh (I : Nat → Prop) (m : Mem V) : AT V → Prop
  | nil => True
  | node a x y d _ kids => (∃ c, m.cell a = some c ∧ c.x = x ∧ c.y = y ∧ c.d = d ∧ ∀ q, c.kid q = (kids q).root) ∧
      ∀ q, Sh I m (kids q) ∧ Lk I m (some a) (kids q)

/-- No lost node has a child that is not lost. -/
def Clean (I : Nat → Prop) (m : Mem V) : Prop := ∀ b c q k, ¬ I b → m.cell b = some c → c.kid q = some k → ¬ I k

theorem Clean.frame {I : Nat → Prop} {m m' : Mem V} {K P : Nat → Prop} (h : Clean I m) (f : Fr m m' K P) (hK : ∀ b, K b → I b) : Clean I m' := by
  intro b c q k hb hc hk
  obtain ⟨c0, h0, _, _, _, hk0, _⟩ := f.cell b c hc
  rw [hk0 (fun h => hb (hK b h)) q] at hk
  exact h b c0 q k hb h0 hk

theorem Sh.cell {I : Nat → Prop} {m : Mem V} {t : AT V} (h : Sh I m t) {b : Nat} (hb : 0 < t.cnt b) : ∃ c, m.cell b = some c := by
  induction t with
  | nil => simp [cnt] at hb
  | node a x y d ok kids ih =>
    obtain ⟨⟨c, hc, _⟩, hk⟩ := h
    by_cases e : b = a
    · subst e; exact ⟨c, hc⟩
    · rw [cnt_node, if_neg e] at hb
      obtain ⟨q, hq⟩ := cntK_pos (by omega : 0 < cntK kids b)
      exact ih q (hk q).1 hq

theorem Lk.frame {I : Nat → Prop} {m m' : Mem V} {K P : Nat → Prop} {p : Option Nat} {t : AT V} (h : Lk I m p t) (f : Fr m m' K P)
    (hP : ∀ a, t.root = some a → ¬ P a) (hr : ∀ a, t.root = some a → ∃ c, m'.cell a = some c) : Lk I m' p t := by
  cases t with
  | nil => trivial
  | node a x y d ok kids =>
    obtain ⟨c, hc, h1, h2⟩ := h
    obtain ⟨c', hc'⟩ := hr a rfl
    obtain ⟨c0, h0, _, _, _, _, hp⟩ := f.cell a c' hc'
    rw [hc] at h0; cases h0
    have hp := hp (hP a rfl)
    exact ⟨c', hc', fun ho => by rw [hp]; exact h1 ho, fun ho => by rw [hp]; exact h2 ho⟩

theorem Lk.mono {I J : Nat → Prop} {m : Mem V} {p : Option Nat} {t : AT V} (h : Lk I m p t) (hJ : ∀ b c, m.cell b = some c → J b → I b)
    {H : Nat → Nat} (hrc : RC m H) : Lk J m p t := by
  cases t with
  | nil => trivial
  | node a x y d ok kids =>
    obtain ⟨c, hc, h1, h2⟩ := h
    refine ⟨c, hc, h1, fun ho => ?_⟩
    obtain ⟨b, hb, hb'⟩ := h2 ho
    obtain ⟨cb, hcb⟩ := hrc.par hc hb
    exact ⟨b, hb, hb'.imp id fun hn hj => hn (hJ b cb hcb hj)⟩

theorem Sh.mono {I J : Nat → Prop} {m : Mem V} {t : AT V} (h : Sh I m t) (hJ : ∀ b c, m.cell b = some c → J b → I b)
    {H : Nat → Nat} (hrc : RC m H) : Sh J m t := by
  induction t with
  | nil => trivial
  | node a x y d ok kids ih => exact ⟨h.1, fun q => ⟨ih q (h.2 q).1, (h.2 q).2.mono hJ hrc⟩⟩

/-- A tree whose root is still there and whose nodes are not touched stays as it is. -/
theorem Sh.frame {I : Nat → Prop} {m m' : Mem V} {K P : Nat → Prop} {H : Nat → Nat} {t : AT V} (h : Sh I m t) (f : Fr m m' K P) (hrc : RC m' H)
    (hK : ∀ b, 0 < t.cnt b → ¬ K b) (hP : ∀ b, 0 < t.cnt b → ¬ P b) (hr : ∀ a, t.root = some a → ∃ c, m'.cell a = some c) : Sh I m' t := by
  induction t with
  | nil => trivial
  | node a x y d ok kids ih =>
    obtain ⟨⟨c, hc, hx, hy, hd, hkid⟩, hk⟩ := h
    obtain ⟨c', hc'⟩ := hr a rfl
    obtain ⟨c0, h0, x0, y0, d0, k0, p0⟩ := f.cell a c' hc'
    rw [hc] at h0; cases h0
    have k1 := k0 (hK a (root_pos rfl))
    have sub : ∀ q b, 0 < (kids q).cnt b → 0 < (node a x y d ok kids).cnt b := fun q b hb => by
      have := cnt_le kids q b
      rw [cnt_node]; omega
    have alive : ∀ q b, (kids q).root = some b → ∃ c, m'.cell b = some c := fun q b hb =>
      hrc.kid hc' (q := q) (by rw [k1 q, hkid q]; exact hb)
    refine ⟨⟨c', hc', x0.trans hx, y0.trans hy, d0.trans hd, fun q => (k1 q).trans (hkid q)⟩, fun q => ⟨?_, ?_⟩⟩
    · exact ih q (hk q).1 (fun b hb => hK b (sub q b hb)) (fun b hb => hP b (sub q b hb)) (alive q)
    · exact (hk q).2.frame f (fun b hb => hP b (sub q b (root_pos hb))) (alive q)

/-- Held, or reachable from a held node by child pointers of nodes outside `K`. -/
inductive Anch (m : Mem V) (H : Nat → Nat) (K : Nat → Prop) : Nat → Prop
  | held {a : Nat} (h : 0 < H a) : Anch m H K a
  | kid {a b : Nat} {c : Cell V} (q : Quadrant) (h : Anch m H K b) (hb : ¬ K b) (hc : m.cell b = some c) (hk : c.kid q = some a) : Anch m H K a

theorem Anch.anti {m : Mem V} {H : Nat → Nat} {K K' : Nat → Prop} {a : Nat} (h : Anch m H K a) (hK : ∀ b, K' b → K b) : Anch m H K' a := by
  induction h with
  | held h => exact .held h
  | kid q _ hb hc hk ih => exact .kid q ih (fun h => hb (hK _ h)) hc hk

theorem Anch.step {m m' : Mem V} {H H' : Nat → Nat} {K K' P : Nat → Prop} {a : Nat} (h : Anch m H K a) (f : Fr m m' K' P) (hrc : RC m' H')
    (hH : ∀ b, H b ≤ H' b) (hK : ∀ b, K' b → K b) : Anch m' H' K a ∧ ∃ c, m'.cell a = some c := by
  induction h with
  | held h => exact ⟨.held (Nat.lt_of_lt_of_le h (hH _)), hrc.held (Nat.lt_of_lt_of_le h (hH _))⟩
  | kid q _ hb hc hk ih =>
    obtain ⟨ia, c', hc'⟩ := ih
    obtain ⟨c0, h0, _, _, _, k0, _⟩ := f.cell _ c' hc'
    rw [hc] at h0; cases h0
    have e := (k0 (fun h => hb (hK _ h)) q).trans hk
    exact ⟨.kid q ia hb hc' e, hrc.kid hc' e⟩

theorem Anch.live {m : Mem V} {H : Nat → Nat} {K : Nat → Prop} {a : Nat} (h : Anch m H K a) (hrc : RC m H) : ∃ c, m.cell a = some c := by
  cases h with
  | held h => exact hrc.held h
  | kid q _ _ hc hk => exact hrc.kid hc hk

/-! ### `disconnect_node_from_parent` -/

theorem disconnect_ok {m : Mem V} {H : Nat → Nat} {a p : Nat} {c pc : Cell V} {q : Quadrant} (h : RC m H) (hc : m.cell a = some c)
    (hp : c.par = some p) (hpc : m.cell p = some pc) (hq : pc.kid q = some a) (hu : ∀ r, r ≠ q → pc.kid r ≠ some a) :
    ∃ m', disconnect a m = .ok m' ∧ RC m' H ∧ Fr m m' (· = p) nowhere ∧
      ∀ c', m'.cell p = some c' → ∀ r, c'.kid r = if r = q then none else pc.kid r := by
  obtain ⟨m1, e1, r1, f1, l1⟩ := addRef_ok (some a) h (fun k hk => by cases hk; exact ⟨c, hc⟩)
  obtain ⟨c1, hc1⟩ := l1 a c hc
  obtain ⟨c0, h0, _, _, _, _, p0⟩ := f1.cell a c1 hc1
  rw [hc] at h0; cases h0
  have par1 : c1.par = some p := (p0 id).trans hp
  obtain ⟨pc1, hpc1⟩ := l1 p pc hpc
  obtain ⟨pc0, h0, _, _, _, k0, _⟩ := f1.cell p pc1 hpc1
  rw [hpc] at h0; cases h0
  have k1 := k0 id
  obtain ⟨m2, e2, r2, f2, g2⟩ := assignKid_ok q none r1 hpc1 (fun k hk => by cases hk)
  obtain ⟨m3, e3, r3, f3⟩ := release_ok (some a) r2
  refine ⟨m3, ?_, r3, ((f1.widen _ _).trans f2).trans (f3.widen _ _), fun c' hc' r => ?_⟩
  · have u : ∀ r, pc1.kid r = some a ↔ r = q := fun r => by
      rw [k1 r]
      exact ⟨fun h => by by_contra hn; exact hu r hn h, fun h => by rw [h]; exact hq⟩
    have u1 := u .ne; have u2 := u .nw; have u3 := u .sw; have u4 := u .se
    simp only [Cell.kid] at u1 u2 u3 u4
    simp only [disconnect, e1, obind_ok, get_eq hc1, par1, get_eq hpc1, u1, u2, u3, u4]
    cases q <;> simp [e2, e3]
  · obtain ⟨c2, h2, _, _, _, k2, _⟩ := f3.cell p c' hc'
    rw [k2 id r, g2 c2 h2 r, k1 r]

theorem disconnect_err {I : Nat → Prop} {m : Mem V} {H : Nat → Nat} {a b : Nat} {c : Cell V} (h : RC m H) (hcl : Clean I m) (hc : m.cell a = some c)
    (hp : c.par = some b) (hb : b = a ∨ ¬ I b) (hI : I a) (hself : ∀ r, c.kid r ≠ some a) : disconnect a m = .err .general := by
  obtain ⟨m1, e1, r1, f1, l1⟩ := addRef_ok (some a) h (fun k hk => by cases hk; exact ⟨c, hc⟩)
  obtain ⟨c1, hc1⟩ := l1 a c hc
  obtain ⟨c0, h0, _, _, _, k0, p0⟩ := f1.cell a c1 hc1
  rw [hc] at h0; cases h0
  have par1 : c1.par = some b := (p0 id).trans hp
  obtain ⟨pc1, hpc1⟩ := r1.par hc1 par1
  have hcl1 := hcl.frame f1 (fun _ => False.elim)
  have u : ∀ r, pc1.kid r ≠ some a := by
    intro r hr
    rcases hb with e | hn
    · subst e
      rw [hc1] at hpc1; cases hpc1
      rw [k0 id r] at hr
      exact hself r hr
    · exact hcl1 b pc1 r a hn hpc1 hr hI
  have u1 := u .ne; have u2 := u .nw; have u3 := u .sw; have u4 := u .se
  simp only [Cell.kid] at u1 u2 u3 u4
  simp only [disconnect, e1, obind_ok, get_eq hc1, par1, get_eq hpc1, u1, u2, u3, u4, if_false, obind_err]

end Mdds.Quad
