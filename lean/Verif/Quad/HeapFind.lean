import Verif.Quad.HeapAttach
/-!
The replacement node in the heap, and the part of the tree that is lost when it moves.
-/
namespace Mdds.Quad

open AT

variable {V : Type}

/-! ### Frames that may also change data -/

/-- Like `Fr`, but coordinates and data of nodes of `P` may change. -/
structure Fd (m m' : Mem V) (K P : Nat → Prop) : Prop where
  next : m'.next = m.next
  cell : ∀ b c', m'.cell b = some c' → ∃ c, m.cell b = some c ∧ (¬ K b → ∀ q, c'.kid q = c.kid q) ∧
    (¬ P b → c'.x = c.x ∧ c'.y = c.y ∧ c'.d = c.d ∧ c'.par = c.par)

theorem Fr.toFd {m m' : Mem V} {K P : Nat → Prop} (h : Fr m m' K P) : Fd m m' K P :=
  ⟨h.next, fun b c' hc => by
    obtain ⟨c, h1, h2, h3, h4, h5, h6⟩ := h.cell b c' hc
    exact ⟨c, h1, h5, fun hn => ⟨h2, h3, h4, h6 hn⟩⟩⟩

theorem Fd.mono {m m' : Mem V} {K K' P P' : Nat → Prop} (h : Fd m m' K P) (hK : ∀ b, K b → K' b) (hP : ∀ b, P b → P' b) : Fd m m' K' P' :=
  ⟨h.next, fun b c' hc => by
    obtain ⟨c, h1, h5, h6⟩ := h.cell b c' hc
    exact ⟨c, h1, fun hn => h5 (fun hk => hn (hK b hk)), fun hn => h6 (fun hk => hn (hP b hk))⟩⟩

theorem Fd.trans {m m' m'' : Mem V} {K P : Nat → Prop} (h : Fd m m' K P) (h' : Fd m' m'' K P) : Fd m m'' K P :=
  ⟨h'.next.trans h.next, fun b c'' hc => by
    obtain ⟨c', i1, i5, i6⟩ := h'.cell b c'' hc
    obtain ⟨c, j1, j5, j6⟩ := h.cell b c' i1
    refine ⟨c, j1, fun hn q => (i5 hn q).trans (j5 hn q), fun hn => ?_⟩
    obtain ⟨a1, a2, a3, a4⟩ := i6 hn
    obtain ⟨b1, b2, b3, b4⟩ := j6 hn
    exact ⟨a1.trans b1, a2.trans b2, a3.trans b3, a4.trans b4⟩⟩

theorem Clean.frameD {I : Nat → Prop} {m m' : Mem V} {K P : Nat → Prop} (h : Clean I m) (f : Fd m m' K P) (hK : ∀ b, K b → I b) : Clean I m' := by
  intro b c q k hb hc hk
  obtain ⟨c0, h0, hk0, _⟩ := f.cell b c hc
  rw [hk0 (fun h => hb (hK b h)) q] at hk
  exact h b c0 q k hb h0 hk

theorem Lk.frameD {I : Nat → Prop} {m m' : Mem V} {K P : Nat → Prop} {p : Option Nat} {t : AT V} (h : Lk I m p t) (f : Fd m m' K P)
    (hP : ∀ a, t.root = some a → ¬ P a) (hr : ∀ a, t.root = some a → ∃ c, m'.cell a = some c) : Lk I m' p t := by
  cases t with
  | nil => trivial
  | node a x y d ok kids =>
    obtain ⟨c, hc, h1, h2⟩ := h
    obtain ⟨c', hc'⟩ := hr a rfl
    obtain ⟨c0, h0, _, hp⟩ := f.cell a c' hc'
    rw [hc] at h0; cases h0
    have hp := (hp (hP a rfl)).2.2.2
    exact ⟨c', hc', fun ho => by rw [hp]; exact h1 ho, fun ho => by rw [hp]; exact h2 ho⟩

theorem Sh.frameD {I : Nat → Prop} {m m' : Mem V} {K P : Nat → Prop} {H : Nat → Nat} {t : AT V} (h : Sh I m t) (f : Fd m m' K P) (hrc : RC m' H)
    (hK : ∀ b, 0 < t.cnt b → ¬ K b) (hP : ∀ b, 0 < t.cnt b → ¬ P b) (hr : ∀ a, t.root = some a → ∃ c, m'.cell a = some c) : Sh I m' t := by
  induction t with
  | nil => trivial
  | node a x y d ok kids ih =>
    obtain ⟨⟨c, hc, hx, hy, hd, hkid⟩, hk⟩ := h
    obtain ⟨c', hc'⟩ := hr a rfl
    obtain ⟨c0, h0, k0, p0⟩ := f.cell a c' hc'
    rw [hc] at h0; cases h0
    have k1 := k0 (hK a (root_pos rfl))
    obtain ⟨x0, y0, d0, _⟩ := p0 (hP a (root_pos rfl))
    have sub : ∀ q b, 0 < (kids q).cnt b → 0 < (node a x y d ok kids).cnt b := fun q b hb => by
      have := cnt_le kids q b
      rw [cnt_node]; omega
    have alive : ∀ q b, (kids q).root = some b → ∃ c, m'.cell b = some c := fun q b hb =>
      hrc.kid hc' (q := q) (by rw [k1 q, hkid q]; exact hb)
    refine ⟨⟨c', hc', x0.trans hx, y0.trans hy, d0.trans hd, fun q => (k1 q).trans (hkid q)⟩, fun q => ⟨?_, ?_⟩⟩
    · exact ih q (hk q).1 (fun b hb => hK b (sub q b hb)) (fun b hb => hP b (sub q b hb)) (alive q)
    · exact (hk q).2.frameD f (fun b hb => hP b (sub q b (root_pos hb))) (alive q)

/-! ### The replacement -/

/-- A running minimum in the heap and in the model. -/
def Rec (kids : Quadrant → AT V) (c : Option (Quadrant × Int × Nat)) (p : Option (Quadrant × Int)) : Prop :=
  c.map (fun z => (z.1, z.2.1)) = p ∧ ∀ q d a, c = some (q, d, a) → ((kids q).last (opposite q)).root = some a

theorem improve_rec {kids : Quadrant → AT V} {c : Option (Quadrant × Int × Nat)} {p : Option (Quadrant × Int)} (h : Rec kids c p) {q : Quadrant} (d : Int) {a : Nat}
    (ha : ((kids q).last (opposite q)).root = some a) : Rec kids (improveH c q d a) (improve p q d) := by
  obtain ⟨h1, h2⟩ := h
  cases c with
  | none => cases h1; exact ⟨rfl, fun q' d' a' e => by cases e; exact ha⟩
  | some z =>
    obtain ⟨q0, d0, a0⟩ := z
    cases h1
    simp only [improveH, improve, Option.map_some]
    by_cases hc : d0 > d
    · rw [if_pos hc, if_pos hc]; exact ⟨rfl, fun q' d' a' e => by cases e; exact ha⟩
    · rw [if_neg hc, if_neg hc]; exact ⟨rfl, fun q' d' a' e => by cases e; exact h2 _ _ _ rfl⟩

/-- All three minima. -/
structure Recs (kids : Quadrant → AT V) (b : BestH) (p : Best) : Prop where
  dx : Rec kids b.dx p.dx
  dy : Rec kids b.dy p.dy
  city : Rec kids b.city p.city

theorem child_tree (a : Nat) (x y : Int) (d : V) (ok : Bool) (kids : Quadrant → AT V) (q : Quadrant) :
    (node a x y d ok kids).tree.child q = (kids q).tree := by cases q <;> rfl

theorem candidate_spec {I : Nat → Prop} {m : Mem V} {H : Nat → Nat} {del : Nat} {x0 y0 x y : Int} {d : V} {ok : Bool} {kids : Quadrant → AT V} {b : BestH} {p : Best}
    (hrc : RC m H) (h : Sh I m (node del x0 y0 d ok kids)) (hd : ∀ b, (node del x0 y0 d ok kids).cnt b ≤ 1) (q : Quadrant) (hb : Recs kids b p) :
    ∃ b', candidateH x y del q m b = .ok b' ∧ Recs kids b' (findCandidate x y (node del x0 y0 d ok kids).tree q p) := by
  obtain ⟨⟨c, hc, hx, hy, hdd, hkid⟩, hk⟩ := h
  simp only [candidateH, get_eq hc, obind_ok, hkid q, findCandidate, child_tree, ← last_tree]
  cases hr : (kids q).root with
  | none =>
    rw [root_none hr]
    exact ⟨b, rfl, hb⟩
  | some k =>
    have hdk : ∀ b, (kids q).cnt b ≤ 1 := fun b => by have h1 := cnt_le kids q b; have h2 := hd b; rw [cnt_node] at h2; omega
    obtain ⟨a, e1, hl⟩ := chain_spec (opposite q) (hk q).1 ((hk q).1.depth_le hrc hdk) hr
    have hlast : Sh I m ((kids q).last (opposite q)) := by
      have : ∀ t : AT V, Sh I m t → Sh I m (t.last (opposite q)) := by
        intro t
        induction t with
        | nil => exact id
        | node a' x' y' d' ok' kk ih =>
          intro h
          by_cases e : kk (opposite q) = nil
          · rw [last_stop e]; exact h
          · rw [last_step e]; exact ih _ (h.2 _).1
      exact this _ (hk q).1
    cases hL : (kids q).last (opposite q) with
    | nil => rw [hL] at hl; cases hl
    | node a' rx ry rd rok rk =>
      rw [hL] at hl hlast
      cases hl
      obtain ⟨⟨cr, hcr, hrx, hry, _, _⟩, _⟩ := hlast
      dsimp only
      simp only [e1, obind_ok, get_eq hcr, hrx, hry]
      have hroot : ((kids q).last (opposite q)).root = some a := by rw [hL]; rfl
      exact ⟨_, rfl, improve_rec hb.dx _ hroot, improve_rec hb.dy _ hroot, improve_rec hb.city _ hroot⟩

theorem last_pos {q : Quadrant} {t : AT V} {a : Nat} (h : (t.last q).root = some a) : 0 < t.cnt a := by
  induction t with
  | nil => cases h
  | node b x y d ok kids ih =>
    by_cases e : kids q = nil
    · rw [last_stop e] at h; cases h; exact root_pos rfl
    · rw [last_step e] at h
      have h1 := ih q h
      have := cnt_le kids q a
      rw [cnt_node]; omega

theorem replacement_spec {I : Nat → Prop} {m : Mem V} {H : Nat → Nat} {del : Nat} {x y : Int} {d : V} {ok : Bool} {kids : Quadrant → AT V}
    (hrc : RC m H) (h : Sh I m (node del x y d ok kids)) (hd : ∀ b, (node del x y d ok kids).cnt b ≤ 1) :
    ∃ o, replacementH x y del m = .ok o ∧ match findReplacement x y (node del x y d ok kids).tree with
      | none => o = none
      | some q => ∃ r, o = some r ∧ ((kids q).last (opposite q)).root = some r := by
  have h0 : Recs kids {} {} := ⟨⟨rfl, fun _ _ _ e => by cases e⟩, ⟨rfl, fun _ _ _ e => by cases e⟩, ⟨rfl, fun _ _ _ e => by cases e⟩⟩
  obtain ⟨b1, e1, h1⟩ := candidate_spec (x := x) (y := y) hrc h hd .ne h0
  obtain ⟨b2, e2, h2⟩ := candidate_spec (x := x) (y := y) hrc h hd .nw h1
  obtain ⟨b3, e3, h3⟩ := candidate_spec (x := x) (y := y) hrc h hd .sw h2
  obtain ⟨b4, e4, h4⟩ := candidate_spec (x := x) (y := y) hrc h hd .se h3
  simp only [replacementH, e1, e2, e3, e4, obind_ok, findReplacement]
  revert h4
  generalize findCandidate x y (node del x y d ok kids).tree .se _ = p
  intro h4
  obtain ⟨⟨x1, x2⟩, ⟨y1, y2⟩, ⟨c1, c2⟩⟩ := h4
  have fst : ∀ {c : Option (Quadrant × Int × Nat)} {p : Option (Quadrant × Int)}, c.map (fun z => (z.1, z.2.1)) = p → p.map Prod.fst = c.map (·.1) := by
    intro c p h; subst h; cases c <;> rfl
  have res : ∀ {c : Option (Quadrant × Int × Nat)}, (∀ q d a, c = some (q, d, a) → ((kids q).last (opposite q)).root = some a) →
      (match c.map (·.1) with | none => c.map (·.2.2) = none | some q => ∃ r, c.map (·.2.2) = some r ∧ ((kids q).last (opposite q)).root = some r) := by
    intro c hc
    cases c with
    | none => rfl
    | some z => exact ⟨_, rfl, hc z.1 z.2.1 z.2.2 rfl⟩
  have same : b4.dx.map (·.2.2) = b4.dy.map (·.2.2) ↔ p.dx.map Prod.fst = p.dy.map Prod.fst := by
    rw [fst x1, fst y1]
    cases hx : b4.dx with
    | none => cases hy : b4.dy <;> simp
    | some z =>
      cases hy : b4.dy with
      | none => simp
      | some w =>
        obtain ⟨q1, d1, a1⟩ := z
        obtain ⟨q2, d2, a2⟩ := w
        have l1 := x2 _ _ _ hx
        have l2 := y2 _ _ _ hy
        simp only [Option.map_some, Option.some.injEq]
        constructor
        · intro e
          subst e
          by_contra hne
          have h1 := last_pos l1; have h2 := last_pos l2
          have h3 := cnt_le2 kids hne a1; have h4 := hd a1; rw [cnt_node] at h4; omega
        · intro e
          subst e
          rw [l1] at l2; cases l2; rfl
  by_cases hc : p.dx.map Prod.fst = p.dy.map Prod.fst ∧ (p.dx.map Prod.fst = some .nw ∨ p.dx.map Prod.fst = some .se)
  · rw [if_pos hc, if_pos ⟨same.2 hc.1, by rw [← fst x1]; exact hc.2⟩]
    refine ⟨_, rfl, ?_⟩
    rw [fst x1]
    exact res x2
  · rw [if_neg hc, if_neg (fun h => hc ⟨same.1 h.1, by rw [fst x1]; exact h.2⟩)]
    refine ⟨_, rfl, ?_⟩
    rw [fst c1]
    exact res c2

/-! ### What is lost -/

theorem Sh.closed {I : Nat → Prop} {m : Mem V} {t : AT V} (h : Sh I m t) {b k : Nat} {c : Cell V} {q : Quadrant} (hb : 0 < t.cnt b) (hc : m.cell b = some c)
    (hk : c.kid q = some k) : 0 < t.cnt k := by
  induction t with
  | nil => simp [AT.cnt] at hb
  | node a x y d ok kids ih =>
    obtain ⟨⟨c0, h0, _, _, _, hkid⟩, hkk⟩ := h
    by_cases e : b = a
    · subst e
      rw [hc] at h0; cases h0
      rw [hkid q] at hk
      have h1 := root_pos hk; have h2 := cnt_le kids q k
      rw [cnt_node]; omega
    · rw [cnt_node, if_neg e] at hb
      obtain ⟨s, hs⟩ := cntK_pos (by omega : 0 < cntK kids b)
      have h1 := ih s (hkk s).1 hs; have h2 := cnt_le kids s k
      rw [cnt_node]; omega

/-- The nodes on the way to the last node in a direction, with their other subtrees. -/
structure Lost (I : Nat → Prop) (m : Mem V) (p : Nat) (dir : Quadrant) (t : AT V) (r : Nat) (rx ry : Int) (rd : V) (rok : Bool) (rk : Quadrant → AT V) (ch : Nat → Nat) : Prop where
  cnt : ∀ b, t.cnt b = ch b + (if b = r then 1 else 0) + cntK rk b
  kids : ∀ b c s k, 0 < ch b → m.cell b = some c → c.kid s = some k → 0 < ch k ∨ k = r
  root : ∀ k, t.root = some k → 0 < ch k ∨ k = r
  par : ∃ c b, m.cell r = some c ∧ c.par = some b ∧ (b = p ∨ b = r ∨ 0 < ch b ∨ ¬ I b)
  sh : Sh I m (node r rx ry rd rok rk)
  stop : rk dir = nil

theorem lost {I : Nat → Prop} {m : Mem V} {dir : Quadrant} {t : AT V} {r : Nat} {rx ry : Int} {rd : V} {rok : Bool} {rk : Quadrant → AT V}
    {p : Nat} (h : Sh I m t) (hl : Lk I m (some p) t) (hr : t.last dir = node r rx ry rd rok rk) :
    ∃ ch, Lost I m p dir t r rx ry rd rok rk ch := by
  induction t generalizing p with
  | nil => cases hr
  | node a x y d ok kids ih =>
    by_cases e : kids dir = nil
    · rw [last_stop e] at hr
      cases hr
      refine ⟨fun _ => 0, ⟨fun b => by rw [cnt_node]; omega, fun b _ _ _ h => absurd h (Nat.lt_irrefl 0), fun k hk => by cases hk; exact .inr rfl, ?_, h, e⟩⟩
      obtain ⟨c, hc, h1, h2⟩ := hl
      cases rok with
      | true => exact ⟨c, p, hc, h1 rfl, .inl rfl⟩
      | false =>
        obtain ⟨b, hb, hb'⟩ := h2 rfl
        exact ⟨c, b, hc, hb, hb'.elim (fun h => .inr (.inl h)) (fun h => .inr (.inr (.inr h)))⟩
    · rw [last_step e] at hr
      obtain ⟨ch, L⟩ := ih dir (h.2 dir).1 (h.2 dir).2 hr
      obtain ⟨⟨c0, h0, _, _, _, hkid⟩, hkk⟩ := h
      refine ⟨fun b => ch b + (if b = a then 1 else 0) + cntK (updQ kids dir nil) b, ⟨fun b => ?_, ?_, fun k hk => ?_, ?_, L.sh, L.stop⟩⟩
      · have h1 := cntK_upd kids dir nil b
        have h2 := L.cnt b
        simp only [AT.cnt] at h1
        rw [cnt_node]; omega
      · intro b c s k hb hc hk
        have key : 0 < (kids dir).cnt k → (k = r ∨ 0 < ch k) → 0 < ch k + (if k = a then 1 else 0) + cntK (updQ kids dir nil) k ∨ k = r :=
          fun _ h => h.elim .inr (fun h => .inl (by omega))
        by_cases h1 : 0 < ch b
        · rcases L.kids b c s k h1 hc hk with h2 | h2
          · exact .inl (by omega)
          · exact .inr h2
        · by_cases h2 : b = a
          · subst h2
            rw [hc] at h0; cases h0
            rw [hkid s] at hk
            by_cases es : s = dir
            · subst es
              rcases L.root k hk with h3 | h3
              · exact .inl (by omega)
              · exact .inr h3
            · have h3 := root_pos hk
              have h4 := cnt_le (updQ kids dir nil) s k
              rw [updQ_ne _ _ es] at h4
              exact .inl (by omega)
          · rw [if_neg h2] at hb
            obtain ⟨s', hs'⟩ := cntK_pos (by omega : 0 < cntK (updQ kids dir nil) b)
            by_cases es : s' = dir
            · subst es; rw [updQ_same] at hs'; simp [AT.cnt] at hs'
            · rw [updQ_ne _ _ es] at hs'
              have h3 := (hkk s').1.closed hs' hc hk
              have h4 := cnt_le (updQ kids dir nil) s' k
              rw [updQ_ne _ _ es] at h4
              exact .inl (by omega)
      · cases hk
        exact .inl (by rw [if_pos rfl]; omega)
      · obtain ⟨c, b, hc, hb, hb'⟩ := L.par
        refine ⟨c, b, hc, hb, ?_⟩
        rcases hb' with h1 | h1 | h1 | h1
        · exact .inr (.inr (.inl (by rw [if_pos h1]; omega)))
        · exact .inr (.inl h1)
        · exact .inr (.inr (.inl (by omega)))
        · exact .inr (.inr (.inr h1))

end Mdds.Quad
