import Verif.Quad.HeapCut2
/-!
`insert_node` and `reinsert_tree` in the heap, for trees of any shape.
-/
namespace Mdds.Quad

open AT

variable {V : Type}

namespace AT

/-- Where the walk to a point ends. -/
def look (x y : Int) : AT V → Option (Nat × Option Quadrant)
  | nil => none
  | node a x0 y0 _ _ kids =>
    if x0 = x ∧ y0 = y then some (a, none)
    else match look x y (kids (getQuadrant x0 y0 x y)) with
      | none => some (a, some (getQuadrant x0 y0 x y))
      | some r => some r

/-- A new node at the place where the walk ends. -/
def att (n : Nat) (x y : Int) (d : V) : AT V → AT V
  | nil => node n x y d true (fun _ => nil)
  | node a x0 y0 d0 ok kids => node a x0 y0 d0 ok (updQ kids (getQuadrant x0 y0 x y) (att n x y d (kids (getQuadrant x0 y0 x y))))

theorem look_none {x y : Int} {t : AT V} : look x y t = none ↔ t = nil := by
  cases t with
  | nil => simp [look]
  | node a x0 y0 d ok kids =>
    simp only [look, reduceCtorEq, iff_false]
    split
    · simp
    · split <;> simp

theorem look_pos {x y : Int} {t : AT V} {w : Nat} {o : Option Quadrant} (h : look x y t = some (w, o)) : 0 < t.cnt w := by
  induction t with
  | nil => cases h
  | node a x0 y0 d ok kids ih =>
    simp only [look] at h
    split at h
    · cases h; exact root_pos rfl
    · split at h
      · cases h; exact root_pos rfl
      · next r hr =>
        cases h
        have h1 := ih _ hr
        have := cnt_le kids (getQuadrant x0 y0 x y) w
        rw [cnt_node]; omega

theorem cnt_att (n : Nat) (x y : Int) (d : V) (t : AT V) (b : Nat) : (att n x y d t).cnt b = t.cnt b + if b = n then 1 else 0 := by
  induction t with
  | nil => simp [att, cnt]
  | node a x0 y0 d0 ok kids ih =>
    have h1 := cntK_upd kids (getQuadrant x0 y0 x y) (att n x y d (kids (getQuadrant x0 y0 x y))) b
    rw [ih] at h1
    simp only [att, cnt_node]
    omega

theorem att_root {t : AT V} (n : Nat) (x y : Int) (d : V) {a : Nat} (h : t.root = some a) : (att n x y d t).root = some a := by
  cases t with
  | nil => cases h
  | node => exact h

end AT

theorem att_lk {J : Nat → Prop} {μ : Mem V} {p : Option Nat} {t : AT V} (n : Nat) (x y : Int) (d : V) {a : Nat} (h : t.root = some a) (hl : Lk J μ p t) :
    Lk J μ p (att n x y d t) := by
  cases t with
  | nil => cases h
  | node => exact hl

theorem walk_at {I : Nat → Prop} {m : Mem V} (x y : Int) {t : AT V} {f : Nat} (h : Sh I m t) (hf : t.depth ≤ f) {a : Nat} (ha : t.root = some a) :
    ∃ w, walk x y f a m = .ok w ∧ AT.look x y t = some w := by
  induction t generalizing f a with
  | nil => cases ha
  | node b x0 y0 d ok kids ih =>
    cases ha
    obtain ⟨f, rfl⟩ : ∃ g, f = g + 1 := ⟨f - 1, by simp only [depth] at hf; omega⟩
    obtain ⟨⟨c, hc, hx, hy, hdd, hkid⟩, hk⟩ := h
    simp only [walk, get_eq hc, obind_ok, hx, hy, AT.look]
    by_cases e : x0 = x ∧ y0 = y
    · rw [if_pos e, if_pos e]; exact ⟨_, rfl, rfl⟩
    · rw [if_neg e, if_neg e, hkid]
      cases hr : (kids (getQuadrant x0 y0 x y)).root with
      | none => rw [root_none hr]; exact ⟨_, rfl, rfl⟩
      | some k =>
        obtain ⟨w, h1, h2⟩ := ih (f := f) _ (hk _).1 (by have := depth_kid b x0 y0 d ok kids (getQuadrant x0 y0 x y); omega) hr
        exact ⟨w, h1, by rw [h2]⟩

theorem insertNode_mk (p : Pt V) (x y : Int) (d : V) (ok : Bool) (k : Quadrant → Tree V) :
    insertNode p (mk x y d ok k) = if x = p.x ∧ y = p.y then .err .general else
      match k (getQuadrant x y p.x p.y) with
      | .nil => .ok (mk x y d ok (updQ k (getQuadrant x y p.x p.y) (Tree.leaf p.x p.y p.d)))
      | c => (insertNode p c).bind fun c' => .ok (mk x y d ok (updQ k (getQuadrant x y p.x p.y) c')) := by
  rw [mk, insertNode.eq_def]
  dsimp only
  split
  · rfl
  · cases getQuadrant x y p.x p.y <;> dsimp only
    · cases k .ne <;> rfl
    · cases k .nw <;> rfl
    · cases k .se <;> rfl
    · cases k .sw <;> rfl

theorem leaf_tree (n : Nat) (x y : Int) (d : V) : (node n x y d true fun _ => nil : AT V).tree = Tree.leaf x y d := rfl

/-- `insert_node` of the model, by where the walk ends. -/
theorem insertNode_look (n : Nat) (p : Pt V) {t : AT V} {w : Nat} {o : Option Quadrant} (h : AT.look p.x p.y t = some (w, o)) :
    insertNode p t.tree = o.elim (.err .general) fun _ => .ok (att n p.x p.y p.d t).tree := by
  induction t with
  | nil => cases h
  | node a x y d ok kids ih =>
    show insertNode p (mk x y d ok fun q => (kids q).tree) = _
    rw [insertNode_mk]
    simp only [AT.look] at h
    by_cases e : x = p.x ∧ y = p.y
    · rw [if_pos e] at h ⊢; cases h; rfl
    · rw [if_neg e] at h ⊢
      split at h
      · next hl =>
        cases h
        rw [AT.look_none] at hl
        simp only [hl, att]
        show Outcome.ok _ = Outcome.ok (mk x y d ok _)
        rw [updQ_map, leaf_tree]
      · next r hr =>
        cases h
        have i := ih _ hr
        cases hk : kids (getQuadrant x y p.x p.y) with
        | nil => rw [hk] at hr; cases hr
        | node b x1 y1 d1 ok1 kk =>
          rw [hk] at i
          dsimp only [AT.tree, mk]
          have i' : insertNode p (Tree.node x1 y1 d1 ok1 (kk .ne).tree (kk .nw).tree (kk .se).tree (kk .sw).tree) = _ := i
          rw [i']
          cases o with
          | none => rfl
          | some q =>
            dsimp only [Option.elim, obind_ok, att]
            show Outcome.ok _ = Outcome.ok (mk x y d ok _)
            rw [updQ_map, hk]
            rfl

/-- All nodes of an anchored tree are anchored by paths that do not go through them. -/
theorem Sh.anch {I : Nat → Prop} {m : Mem V} {H : Nat → Nat} {t : AT V} {w : Nat} (h : Sh I m t) (hd : ∀ b, t.cnt b ≤ 1)
    (hr : ∀ a, t.root = some a → Anch m H (· = w) a) (hw : 0 < t.cnt w) : Anch m H (· = w) w := by
  induction t with
  | nil => simp [cnt] at hw
  | node a x y d ok kids ih =>
    obtain ⟨⟨c, hc, hx, hy, hdd, hkid⟩, hk⟩ := h
    by_cases e : w = a
    · subst e; exact hr _ rfl
    · rw [cnt_node, if_neg e] at hw
      obtain ⟨q, hq⟩ := cntK_pos (by omega : 0 < cntK kids w)
      exact ih q (hk q).1 (fun b => by have h1 := cnt_le kids q b; have h2 := hd b; rw [cnt_node] at h2; omega)
        (fun b hb => .kid q (hr a rfl) (Ne.symm e) hc ((hkid q).trans hb)) hq

theorem att_sh {I : Nat → Prop} {m m' : Mem V} {H : Nat → Nat} {n w : Nat} {x y : Int} {d : V} {q : Quadrant} {cw cn : Cell V} {t : AT V}
    (h : Sh I m t) (hd : ∀ b, t.cnt b ≤ 1) (hl : AT.look x y t = some (w, some q)) (f : Fr m m' (· = w) (· = n)) (hrc : RC m' H)
    (hn : t.cnt n = 0) (hr : ∀ a, t.root = some a → ∃ c, m'.cell a = some c) (hcw : m.cell w = some cw)
    (hkw : ∀ c', m'.cell w = some c' → ∀ r, c'.kid r = if r = q then some n else cw.kid r)
    (hcn : m'.cell n = some cn) (hnx : cn.x = x) (hny : cn.y = y) (hnd : cn.d = d) (hnk : ∀ r, cn.kid r = none) (hnp : cn.par = some w) :
    Sh I m' (att n x y d t) := by
  induction t with
  | nil => cases hl
  | node a x0 y0 d0 ok kids ih =>
    obtain ⟨⟨c, hc, hx, hy, hdd, hkid⟩, hk⟩ := h
    obtain ⟨c', hc'⟩ := hr a rfl
    obtain ⟨c0, h0, x1, y1, d1, k1, p1⟩ := f.cell a c' hc'
    rw [hc] at h0; cases h0
    have hna : ¬ n = a := fun e => by subst e; rw [cnt_node, if_pos rfl] at hn; omega
    have hnk0 : ∀ r, (kids r).cnt n = 0 := fun r => by have := cnt_le kids r n; rw [cnt_node] at hn; omega
    have hdk : ∀ r b, (kids r).cnt b ≤ 1 := fun r b => by have h1 := cnt_le kids r b; have h2 := hd b; rw [cnt_node] at h2; omega
    have hnn : ∀ r b, 0 < (kids r).cnt b → b ≠ n := fun r b hb e => by subst e; have := hnk0 r; omega
    simp only [AT.look] at hl
    split at hl
    · cases hl
    · simp only [att]
      split at hl
      · next hlk =>
        cases hl
        rw [AT.look_none] at hlk
        have kw := hkw c' hc'
        rw [hc] at hcw; cases hcw
        have hna' : ∀ r b, 0 < (kids r).cnt b → b ≠ w := fun r b hb e => by
          subst e; have h1 := cnt_le kids r b; have h2 := hd b; rw [cnt_node, if_pos rfl] at h2; omega
        refine ⟨⟨c', hc', x1.trans hx, y1.trans hy, d1.trans hdd, fun r => ?_⟩, fun r => ?_⟩
        · rw [kw r]
          split
          · next e => rw [e, updQ_same, hlk]; rfl
          · next e => rw [updQ_ne _ _ e, hkid r]
        · by_cases e : r = getQuadrant x0 y0 x y
          · subst e
            rw [updQ_same, hlk]
            exact ⟨⟨⟨cn, hcn, hnx, hny, hnd, fun r => hnk r⟩, fun r => ⟨trivial, trivial⟩⟩, ⟨cn, hcn, fun _ => hnp, fun h => by cases h⟩⟩
          · rw [updQ_ne _ _ e]
            have al : ∀ b, (kids r).root = some b → ∃ c, m'.cell b = some c := fun b hb => hrc.kid hc' (q := r) (by rw [kw r, if_neg e, hkid r]; exact hb)
            exact ⟨(hk r).1.frame f hrc (hna' r) (hnn r) al, (hk r).2.frame f (fun b hb => hnn r b (root_pos hb)) al⟩
      · next s hs =>
        cases hl
        have hwk := look_pos hs
        have hwa : ¬ a = w := fun e => by
          subst e; have h1 := cnt_le kids (getQuadrant x0 y0 x y) a; have h2 := hd a; rw [cnt_node, if_pos rfl] at h2; omega
        have k1 := k1 hwa
        have al : ∀ r b, (kids r).root = some b → ∃ c, m'.cell b = some c := fun r b hb => hrc.kid hc' (q := r) (by rw [k1 r, hkid r]; exact hb)
        have hne : kids (getQuadrant x0 y0 x y) ≠ nil := fun e => by rw [e] at hs; cases hs
        have hroot : (att n x y d (kids (getQuadrant x0 y0 x y))).root = (kids (getQuadrant x0 y0 x y)).root := by
          cases hr0 : (kids (getQuadrant x0 y0 x y)).root with
          | none => exact absurd (root_none hr0) hne
          | some b => exact att_root n x y d hr0
        refine ⟨⟨c', hc', x1.trans hx, y1.trans hy, d1.trans hdd, fun r => ?_⟩, fun r => ?_⟩
        · rw [k1 r, hkid r]
          by_cases e : r = getQuadrant x0 y0 x y
          · subst e; rw [updQ_same, hroot]
          · rw [updQ_ne _ _ e]
        · by_cases e : r = getQuadrant x0 y0 x y
          · subst e
            rw [updQ_same]
            refine ⟨ih _ (hk _).1 (hdk _) hs (hnk0 _) (al _), ?_⟩
            have hlk := (hk (getQuadrant x0 y0 x y)).2.frame f (fun b hb => hnn _ b (root_pos hb)) (al _)
            revert hlk
            generalize kids (getQuadrant x0 y0 x y) = u at hne
            cases u with
            | nil => exact absurd rfl hne
            | node => exact id
          · rw [updQ_ne _ _ e]
            have hnw : ∀ b, 0 < (kids r).cnt b → b ≠ w := fun b hb e' => by
              subst e'; have h1 := cnt_le2 kids e b; have h2 := hd b; rw [cnt_node] at h2; omega
            exact ⟨(hk r).1.frame f hrc hnw (hnn r) (al r), (hk r).2.frame f (fun b hb => hnn r b (root_pos hb)) (al r)⟩

/-- `insert_node` of a node without children. -/
theorem insertNodeH_spec {I : Nat → Prop} {m : Mem V} {H : Nat → Nat} {dest n : Nat} {D : AT V} {cn : Cell V} (hrc : RC m H) (hD : Sh I m D)
    (hdest : D.root = some dest) (hd : ∀ b, D.cnt b ≤ 1) (hn0 : D.cnt n = 0) (hcn : m.cell n = some cn) (hnk : ∀ r, cn.kid r = none)
    (han : Anch m H (fun b => 0 < D.cnt b + (if b = n then 1 else 0)) dest) (hann : Anch m H (fun b => 0 < D.cnt b + (if b = n then 1 else 0)) n) :
    Ref (insertNodeH dest n m) (insertNode ⟨cn.x, cn.y, cn.d⟩ D.tree) fun m' T => ∃ D', T = D'.tree ∧ D'.root = some dest ∧ RC m' H ∧
      Fr m m' (fun b => 0 < D.cnt b) (· = n) ∧ Sh I m' D' ∧ (∀ b, D'.cnt b = D.cnt b + if b = n then 1 else 0) ∧ ∀ J (μ : Mem V) p, Lk J μ p D → Lk J μ p D' := by
  obtain ⟨w, e1, hl⟩ := walk_at cn.x cn.y hD (hD.depth_le hrc hd) hdest
  obtain ⟨w, o⟩ := w
  rw [insertNode_look n ⟨cn.x, cn.y, cn.d⟩ hl]
  simp only [insertNodeH, get_eq hcn, obind_ok, e1]
  cases o with
  | none => rfl
  | some q =>
    dsimp only [Option.elim]
    have hw := look_pos hl
    obtain ⟨cw, hcw⟩ := hD.cell hw
    obtain ⟨m1, e2, r1, f1, g1⟩ := assignKid_ok q (some n) hrc hcw (fun k hk => by cases hk; exact ⟨cn, hcn⟩)
    have hnw : n ≠ w := fun e => by subst e; omega
    obtain ⟨_, cn1, hcn1⟩ := hann.step f1 r1 (fun _ => Nat.le_refl _) (fun b e => by subst e; omega)
    have hdw : ∀ a, D.root = some a → Anch m H (· = w) a := fun a ha => by
      rw [hdest] at ha; cases ha
      exact han.anti (fun b e => by subst e; omega)
    obtain ⟨_, cw1, hcw1⟩ := (hD.anch hd hdw hw).step f1 r1 (fun _ => Nat.le_refl _) (fun b h => h)
    obtain ⟨m2, e3, r2, f2, g2⟩ := assignPar_ok (some w) r1 hcn1 (fun k hk => by cases hk; exact ⟨cw1, hcw1⟩)
    have fr : Fr m m2 (· = w) (· = n) := (f1.mono (fun _ h => h) (fun _ h => h.elim)).trans (f2.mono (fun _ h => h.elim) (fun _ h => h))
    obtain ⟨_, cn2, hcn2⟩ := hann.step fr r2 (fun _ => Nat.le_refl _) (fun b e => by subst e; omega)
    obtain ⟨_, cd2, hcd2⟩ := han.step fr r2 (fun _ => Nat.le_refl _) (fun b e => by subst e; omega)
    obtain ⟨cz, hz, xz, yz, dz, kz, _⟩ := fr.cell n cn2 hcn2
    rw [hcn] at hz; cases hz
    have kz := kz hnw
    have hr2 : ∀ a, D.root = some a → ∃ c, m2.cell a = some c := fun a ha => by rw [hdest] at ha; cases ha; exact ⟨cd2, hcd2⟩
    refine ⟨m2, by simp only [e2, obind_ok, e3], att n cn.x cn.y cn.d D, rfl, att_root n cn.x cn.y cn.d hdest, r2,
      fr.mono (fun b e => by subst e; exact hw) (fun b h => h), ?_, cnt_att n cn.x cn.y cn.d D,
      fun J μ p h => att_lk n cn.x cn.y cn.d hdest h⟩
    refine att_sh hD hd hl fr r2 hn0 hr2 hcw (fun c' hc' r => ?_) hcn2 xz yz dz (fun r => (kz r).trans (hnk r)) (g2 cn2 hcn2)
    obtain ⟨c1, h1, _, _, _, k1, _⟩ := f2.cell w c' hc'
    rw [k1 id r, g1 c1 h1 r]

theorem reinsertTree_mk (D : Tree V) (x y : Int) (d : V) (ok : Bool) (k : Quadrant → Tree V) :
    reinsertTree D (mk x y d ok k) = (reinsertTree D (k .ne)).bind fun d1 => (reinsertTree d1 (k .nw)).bind fun d2 =>
      (reinsertTree d2 (k .se)).bind fun d3 => (reinsertTree d3 (k .sw)).bind fun d4 => insertNode ⟨x, y, d⟩ d4 := rfl

/-- What `reinsert_tree` leaves. -/
structure Reins (I : Nat → Prop) (m : Mem V) (H : Nat → Nat) (dest : Nat) (D u : AT V) (m' : Mem V) (T : Tree V) (D' : AT V) : Prop where
  tree : T = D'.tree
  root : D'.root = some dest
  rc : RC m' H
  fr : Fr m m' (fun b => 0 < D.cnt b + u.cnt b) (fun b => 0 < u.cnt b)
  sh : Sh I m' D'
  cnt : ∀ b, D'.cnt b = D.cnt b + u.cnt b
  lk : ∀ J (μ : Mem V) p, Lk J μ p D → Lk J μ p D'

/-- One child of the tree being taken apart. -/
def sideH (f dest root : Nat) (q : Quadrant) (m : Mem V) : Outcome (Mem V) := (m.get root).bind fun c => match c.kid q with
  | none => .ok m
  | some k => (reinsertH f dest k m).bind (assignKid root q none)

theorem reinsertH_succ (f dest root : Nat) (m : Mem V) : reinsertH (f + 1) dest root m =
    (sideH f dest root .ne m).bind fun m => (sideH f dest root .nw m).bind fun m => (sideH f dest root .se m).bind fun m =>
      (sideH f dest root .sw m).bind fun m => (assignPar root none m).bind (insertNodeH dest root) := rfl

/-- `reinsert_tree` works for the tree `u`. -/
def ReinsertOk (I : Nat → Prop) (f : Nat) (u : AT V) : Prop := ∀ (dest r : Nat) (D : AT V) (m : Mem V) (H : Nat → Nat), RC m H → Sh I m D →
    D.root = some dest → Sh I m u → u.root = some r → (∀ b, D.cnt b + u.cnt b ≤ 1) →
    Anch m H (fun b => 0 < D.cnt b + u.cnt b) dest → Anch m H (fun b => 0 < D.cnt b + u.cnt b) r →
    Ref (reinsertH f dest r m) (reinsertTree D.tree u.tree) fun m' T => ∃ D', Reins I m H dest D u m' T D'

/-- Between the children: `D` has grown by some of them, the others (`ku`) are left. -/
structure Half (I : Nat → Prop) (m0 : Mem V) (H : Nat → Nat) (dest : Nat) (D0 : AT V) (r : Nat) (x y : Int) (d : V) (ok : Bool) (kids : Quadrant → AT V)
    (ku : Quadrant → AT V) (m : Mem V) (D : AT V) : Prop where
  root : D.root = some dest
  rc : RC m H
  fr : Fr m0 m (fun b => 0 < D0.cnt b + (node r x y d ok kids).cnt b) (fun b => 0 < (node r x y d ok kids).cnt b)
  sh : Sh I m D
  shu : Sh I m (node r x y d ok ku)
  cnt : ∀ b, D.cnt b + cntK ku b = D0.cnt b + cntK kids b
  lk : ∀ J (μ : Mem V) p, Lk J μ p D0 → Lk J μ p D

theorem side_spec {I : Nat → Prop} {f : Nat} {m0 : Mem V} {H : Nat → Nat} {dest : Nat} {D0 : AT V} {r : Nat} {x y : Int} {d : V} {ok : Bool}
    {kids ku : Quadrant → AT V} {m : Mem V} {D : AT V} {q : Quadrant} (ih : ReinsertOk I f (kids q)) (hq : ku q = kids q)
    (hd : ∀ b, D0.cnt b + (node r x y d ok kids).cnt b ≤ 1)
    (an1 : Anch m0 H (fun b => 0 < D0.cnt b + (node r x y d ok kids).cnt b) dest) (an2 : Anch m0 H (fun b => 0 < D0.cnt b + (node r x y d ok kids).cnt b) r)
    (h : Half I m0 H dest D0 r x y d ok kids ku m D) :
    Ref (sideH f dest r q m) (reinsertTree D.tree (kids q).tree) fun m' T => ∃ D', T = D'.tree ∧ Half I m0 H dest D0 r x y d ok kids (updQ ku q nil) m' D' := by
  obtain ⟨hroot, hrc, hfr, hsh, hshu, hcnt, hlk⟩ := h
  obtain ⟨an1', cdd, hcdd⟩ := an1.step hfr hrc (fun _ => Nat.le_refl _) (fun _ h => h)
  obtain ⟨an2', c, hc⟩ := an2.step hfr hrc (fun _ => Nat.le_refl _) (fun _ h => h)
  have hkid : ∀ q, c.kid q = (ku q).root := fun q => by
    obtain ⟨c0, h0, _, _, _, hk⟩ := hshu.1
    rw [hc] at h0; cases h0; exact hk q
  have hdr : D0.cnt r = 0 ∧ cntK kids r = 0 := by have := hd r; rw [cnt_node, if_pos rfl] at this; omega
  simp only [sideH, get_eq hc, obind_ok, hkid q, hq]
  cases hr : (kids q).root with
  | none =>
    have e := root_none hr
    rw [e]
    have e2 : updQ ku q nil = ku := by
      funext s; simp only [updQ]; split
      · next h => rw [h, hq, e]
      · rfl
    exact ⟨m, rfl, D, rfl, hroot, hrc, hfr, hsh, by rw [e2]; exact hshu, by rw [e2]; exact hcnt, hlk⟩
  | some k =>
    dsimp only
    have hKq : ∀ b, D.cnt b + (kids q).cnt b ≤ D0.cnt b + cntK kids b := fun b => by
      have h1 := cnt_le ku q b; have h2 := hcnt b; rw [hq] at h1; omega
    have sub : ∀ b, 0 < D.cnt b + (kids q).cnt b → 0 < D0.cnt b + (node r x y d ok kids).cnt b := fun b hb => by
      have := hKq b; rw [cnt_node]; omega
    have i := ih dest k D m H hrc hsh hroot (by rw [← hq]; exact (hshu.2 q).1) hr
      (fun b => by have h1 := hKq b; have h2 := hd b; rw [cnt_node] at h2; omega) (an1'.anti sub)
      (.kid q (an2'.anti sub) (by have h1 := hKq r; omega) hc (by rw [hkid q, hq]; exact hr))
    rw [show reinsertTree D.tree (kids q).tree = (reinsertTree D.tree (kids q).tree).bind .ok by cases reinsertTree D.tree (kids q).tree <;> rfl]
    refine Ref.bind i ?_
    rintro m1 T ⟨D1, R⟩
    have rc1 := R.rc
    have fr1 : Fr m m1 (fun b => 0 < D0.cnt b + (node r x y d ok kids).cnt b) (fun b => 0 < (node r x y d ok kids).cnt b) :=
      R.fr.mono sub (fun b hb => by have := cnt_le kids q b; rw [cnt_node]; omega)
    obtain ⟨an1'', cd1, hcd1⟩ := an1'.step fr1 rc1 (fun _ => Nat.le_refl _) (fun _ h => h)
    obtain ⟨an2'', c1, hc1⟩ := an2'.step fr1 rc1 (fun _ => Nat.le_refl _) (fun _ h => h)
    obtain ⟨m2, e2, rc2, f2, g2⟩ := assignKid_ok q none rc1 hc1 (fun k hk => by cases hk)
    have rK : 0 < D0.cnt r + (node r x y d ok kids).cnt r := by rw [cnt_node, if_pos rfl]; omega
    have fr2 : Fr m1 m2 (fun b => 0 < D0.cnt b + (node r x y d ok kids).cnt b) (fun b => 0 < (node r x y d ok kids).cnt b) :=
      f2.mono (fun b e => by subst e; exact rK) (fun _ h => h.elim)
    obtain ⟨_, cd2, hcd2⟩ := an1''.step fr2 rc2 (fun _ => Nat.le_refl _) (fun _ h => h)
    obtain ⟨_, c2, hc2⟩ := an2''.step fr2 rc2 (fun _ => Nat.le_refl _) (fun _ h => h)
    have cnt1 : ∀ b, D1.cnt b + cntK (updQ ku q nil) b = D0.cnt b + cntK kids b := fun b => by
      have h1 := cntK_upd ku q nil b; have h2 := hcnt b; have h3 := R.cnt b; rw [hq] at h1; simp only [AT.cnt] at h1; omega
    have hD1r : D1.cnt r = 0 := by have := cnt1 r; omega
    obtain ⟨cz, hz, xz, yz, dz, kz, pz⟩ := R.fr.cell r c1 hc1
    rw [hc] at hz; cases hz
    have kz := kz (by have h1 := hKq r; omega)
    have hdu : ∀ b, (node r x y d ok ku).cnt b ≤ 1 := fun b => by have h1 := hcnt b; have h2 := hd b; rw [cnt_node] at h2 ⊢; omega
    have frU : Fr m m2 (fun b => b = r ∨ 0 < D.cnt b + (kids q).cnt b) (fun b => 0 < (kids q).cnt b) :=
      (R.fr.mono (fun b h => .inr h) (fun _ h => h)).trans (f2.mono (fun b h => .inl h) (fun _ h => h.elim))
    refine ⟨m2, e2, D1, R.tree, R.root, rc2, (hfr.trans fr1).trans fr2, ?_, ?_, cnt1, fun J μ p h => R.lk J μ p (hlk J μ p h)⟩
    · exact R.sh.frame f2 rc2 (fun b hb e => by subst e; omega) (fun _ _ => id) (fun a ha => by rw [R.root] at ha; cases ha; exact ⟨cd2, hcd2⟩)
    · obtain ⟨⟨c0, h0, hx, hy, hdd, hk0⟩, hk⟩ := hshu
      rw [hc] at h0; cases h0
      obtain ⟨cy, hyy, x2, y2, d2, _, _⟩ := frU.cell r c2 hc2
      rw [hc] at hyy; cases hyy
      refine ⟨⟨c2, hc2, x2.trans hx, y2.trans hy, d2.trans hdd, fun s => ?_⟩, fun s => ?_⟩
      · rw [g2 c2 hc2 s]
        split
        · next e => rw [e, updQ_same]; rfl
        · next e => rw [updQ_ne _ _ e, kz s, hkid s]
      · by_cases e : s = q
        · subst e; rw [updQ_same]; exact ⟨trivial, trivial⟩
        · rw [updQ_ne _ _ e]
          have al : ∀ b, (ku s).root = some b → ∃ c, m2.cell b = some c := fun b hb => rc2.kid hc2 (q := s) (by rw [g2 c2 hc2 s, if_neg e, kz s, hkid s]; exact hb)
          have n1 : ∀ b, 0 < (ku s).cnt b → ¬ 0 < (kids q).cnt b := fun b h1 h2 => by
            have h3 := cnt_le2 ku e b; have h4 := hdu b; rw [cnt_node] at h4; rw [hq] at h3; omega
          have n2 : ∀ b, 0 < (ku s).cnt b → ¬ (b = r ∨ 0 < D.cnt b + (kids q).cnt b) := fun b h1 h2 => by
            have h3 := cnt_le2 ku e b; have h4 := hd b; have h5 := hcnt b; rw [cnt_node] at h4; rw [hq] at h3
            rcases h2 with h2 | h2
            · rw [if_pos h2] at h4; omega
            · omega
          exact ⟨(hk s).1.frame frU rc2 n2 n1 al, (hk s).2.frame frU (fun b hb => n1 b (root_pos hb)) al⟩

theorem reinsert_spec (I : Nat → Prop) : ∀ (u : AT V) (f : Nat), u.depth ≤ f → ReinsertOk I f u := by
  intro u
  induction u with
  | nil => intro f hf dest r D m H _ _ _ _ hr; cases hr
  | node r x y d ok kids ih =>
    intro f hf dest r' D m H hrc hD hdest hu hr hd an1 an2
    cases hr
    obtain ⟨f, rfl⟩ : ∃ g, f = g + 1 := ⟨f - 1, by simp only [depth] at hf; omega⟩
    have hi : ∀ q, ReinsertOk I f (kids q) := fun q => ih q f (by have := depth_kid r x y d ok kids q; omega)
    show Ref (reinsertH (f + 1) dest r m) (reinsertTree D.tree (mk x y d ok fun q => (kids q).tree)) _
    rw [reinsertTree_mk, reinsertH_succ]
    have h0 : Half I m H dest D r x y d ok kids kids m D := ⟨hdest, hrc, .refl .., hD, hu, fun b => rfl, fun _ _ _ h => h⟩
    refine Ref.bind (side_spec (hi .ne) rfl hd an1 an2 h0) ?_
    rintro m1 T1 ⟨D1, rfl, h1⟩
    refine Ref.bind (side_spec (hi .nw) (by rw [updQ_ne _ _ (by decide)]) hd an1 an2 h1) ?_
    rintro m2 T2 ⟨D2, rfl, h2⟩
    refine Ref.bind (side_spec (hi .se) (by rw [updQ_ne _ _ (by decide), updQ_ne _ _ (by decide)]) hd an1 an2 h2) ?_
    rintro m3 T3 ⟨D3, rfl, h3⟩
    refine Ref.bind (side_spec (hi .sw) (by rw [updQ_ne _ _ (by decide), updQ_ne _ _ (by decide), updQ_ne _ _ (by decide)]) hd an1 an2 h3) ?_
    rintro m4 T4 ⟨D4, rfl, h4⟩
    have ek : updQ (updQ (updQ (updQ kids .ne nil) .nw nil) .se nil) .sw nil = fun _ => nil := by
      funext s; cases s <;> rfl
    rw [ek] at h4
    obtain ⟨hroot, rc4, fr4, sh4, shu4, cnt4, lk4⟩ := h4
    obtain ⟨an1', cd4, hcd4⟩ := an1.step fr4 rc4 (fun _ => Nat.le_refl _) (fun _ h => h)
    obtain ⟨an2', c4, hc4⟩ := an2.step fr4 rc4 (fun _ => Nat.le_refl _) (fun _ h => h)
    have hcn : ∀ b, cntK (fun _ => nil : Quadrant → AT V) b = 0 := fun b => rfl
    obtain ⟨⟨c, hc, hx, hy, hdd, hkid⟩, _⟩ := shu4
    rw [hc4] at hc; cases hc
    obtain ⟨m5, e5, rc5, f5, g5⟩ := assignPar_ok none rc4 hc4 (fun k hk => by cases hk)
    simp only [e5, obind_ok]
    have rK : 0 < (node r x y d ok kids).cnt r := root_pos rfl
    have fr5 : Fr m4 m5 (fun b => 0 < D.cnt b + (node r x y d ok kids).cnt b) (fun b => 0 < (node r x y d ok kids).cnt b) :=
      f5.mono (fun _ h => h.elim) (fun b e => by subst e; exact rK)
    obtain ⟨an1'', cd5, hcd5⟩ := an1'.step fr5 rc5 (fun _ => Nat.le_refl _) (fun _ h => h)
    obtain ⟨an2'', c5, hc5⟩ := an2'.step fr5 rc5 (fun _ => Nat.le_refl _) (fun _ h => h)
    obtain ⟨cz, hz, xz, yz, dz, kz, _⟩ := f5.cell r c5 hc5
    rw [hc4] at hz; cases hz
    have kz := kz id
    have hD4r : D4.cnt r = 0 := by have h1 := cnt4 r; have h2 := hd r; rw [cnt_node, if_pos rfl] at h2; rw [hcn] at h1; omega
    have cnt5 : ∀ b, D4.cnt b + (if b = r then 1 else 0) = D.cnt b + (node r x y d ok kids).cnt b := fun b => by
      have h1 := cnt4 b; rw [hcn] at h1; rw [cnt_node]; omega
    have sh5 : Sh I m5 D4 := sh4.frame f5 rc5 (fun _ _ => id) (fun b hb e => by subst e; omega) (fun a ha => by rw [hroot] at ha; cases ha; exact ⟨cd5, hcd5⟩)
    have key := insertNodeH_spec (I := I) rc5 sh5 hroot (fun b => by have h1 := cnt5 b; have h2 := hd b; omega) hD4r hc5 (fun s => (kz s).trans (hkid s))
      (an1''.anti fun b hb => by have := cnt5 b; omega) (an2''.anti fun b hb => by have := cnt5 b; omega)
    rw [xz.trans hx, yz.trans hy, dz.trans hdd] at key
    refine key.mono ?_
    rintro m6 T ⟨D', rfl, hr', rc6, fr6, sh6, cnt6, lk6⟩
    exact ⟨D', rfl, hr', rc6, (fr4.trans fr5).trans (fr6.mono (fun b hb => by have := cnt5 b; omega) (fun b e => by subst e; exact rK)), sh6,
      fun b => by rw [cnt6 b, cnt5 b], fun J μ p h => lk6 J μ p (lk4 J μ p h)⟩

end Mdds.Quad
