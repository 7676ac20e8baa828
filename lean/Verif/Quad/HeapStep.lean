import Verif.Quad.HeapRemove2
/-!
`insert`, `clear`, copying and `find` in the heap, for trees of any shape.
-/
namespace Mdds.Quad

open AT

variable {V : Type}

/-! ### `insert` -/

theorem insertPt_mk (px py : Int) (pd : V) (x y : Int) (d : V) (ok : Bool) (k : Quadrant → Tree V) :
    insertPt px py pd (mk x y d ok k) = if x = px ∧ y = py then mk x y pd ok k
      else mk x y d ok (updQ k (getQuadrant x y px py) (insertPt px py pd (k (getQuadrant x y px py)))) := by
  rw [mk, insertPt]
  split
  · rfl
  · cases getQuadrant x y px py <;> rfl

namespace AT

/-- New data for the node at a point. -/
def setD (x y : Int) (d : V) : AT V → AT V
  | nil => nil
  | node a x0 y0 d0 ok kids =>
    if x0 = x ∧ y0 = y then node a x0 y0 d ok kids
    else node a x0 y0 d0 ok (updQ kids (getQuadrant x0 y0 x y) (setD x y d (kids (getQuadrant x0 y0 x y))))

theorem setD_root (x y : Int) (d : V) (t : AT V) : (setD x y d t).root = t.root := by
  cases t with
  | nil => rfl
  | node a x0 y0 d0 ok kids => simp only [setD]; split <;> rfl

theorem setD_cnt (x y : Int) (d : V) (t : AT V) (b : Nat) : (setD x y d t).cnt b = t.cnt b := by
  induction t with
  | nil => rfl
  | node a x0 y0 d0 ok kids ih =>
    simp only [setD]
    split
    · rfl
    · have h := cntK_upd kids (getQuadrant x0 y0 x y) (setD x y d (kids (getQuadrant x0 y0 x y))) b
      rw [ih] at h
      rw [cnt_node, cnt_node]; omega

/-- The node `a` of the tree holds the point `(x, y)`. -/
def Has (a : Nat) (x y : Int) : AT V → Prop
  | nil => False
  | node a0 x0 y0 _ _ kids => (a = a0 ∧ x = x0 ∧ y = y0) ∨ ∃ q, Has a x y (kids q)

/-- Every node of `t` is in `u`, with its point. -/
def Kept (t u : AT V) : Prop := ∀ a x y, Has a x y t → Has a x y u

theorem Kept.refl (t : AT V) : Kept t t := fun _ _ _ h => h

theorem Kept.trans {t u v : AT V} (h : Kept t u) (h' : Kept u v) : Kept t v := fun a x y i => h' a x y (h a x y i)

theorem has_upd {a : Nat} {x y : Int} {kids : Quadrant → AT V} {q0 : Quadrant} {u : AT V} (hu : Has a x y (kids q0) → Has a x y u)
    (h : ∃ q, Has a x y (kids q)) : ∃ q, Has a x y (updQ kids q0 u q) := by
  obtain ⟨q, h⟩ := h
  refine ⟨q, ?_⟩
  by_cases e : q = q0
  · subst e; rw [updQ_same]; exact hu h
  · rw [updQ_ne _ _ e]; exact h

theorem kept_setD (x y : Int) (d : V) (t : AT V) : Kept t (setD x y d t) := by
  induction t with
  | nil => exact fun _ _ _ h => h
  | node a0 x0 y0 d0 ok kids ih =>
    intro a x' y' h
    simp only [setD]
    split
    · exact h
    · rcases h with h | h
      · exact .inl h
      · exact .inr (has_upd (ih _ a x' y') h)

theorem kept_att (n : Nat) (x y : Int) (d : V) (t : AT V) : Kept t (att n x y d t) := by
  induction t with
  | nil => exact fun _ _ _ h => h.elim
  | node a0 x0 y0 d0 ok kids ih =>
    intro a x' y' h
    simp only [att]
    rcases h with h | h
    · exact .inl h
    · exact .inr (has_upd (ih _ a x' y') h)

end AT

theorem insertPt_old {x y : Int} (d : V) {t : AT V} {w : Nat} (h : AT.look x y t = some (w, none)) : insertPt x y d t.tree = (setD x y d t).tree := by
  induction t with
  | nil => cases h
  | node a x0 y0 d0 ok kids ih =>
    show insertPt x y d (mk x0 y0 d0 ok fun q => (kids q).tree) = _
    rw [insertPt_mk]
    simp only [AT.look] at h
    simp only [setD]
    by_cases e : x0 = x ∧ y0 = y
    · rw [if_pos e, if_pos e]; rfl
    · rw [if_neg e] at h ⊢
      rw [if_neg e]
      split at h
      · cases h
      · next r hr =>
        cases h
        rw [ih _ hr]
        show _ = mk x0 y0 d0 ok _
        rw [updQ_map]

theorem insertPt_new {x y : Int} (n : Nat) (d : V) {t : AT V} {w : Nat} {q : Quadrant} (h : AT.look x y t = some (w, some q)) :
    insertPt x y d t.tree = (att n x y d t).tree := by
  induction t with
  | nil => cases h
  | node a x0 y0 d0 ok kids ih =>
    show insertPt x y d (mk x0 y0 d0 ok fun q => (kids q).tree) = _
    rw [insertPt_mk]
    simp only [AT.look] at h
    simp only [att]
    by_cases e : x0 = x ∧ y0 = y
    · rw [if_pos e] at h; cases h
    · rw [if_neg e] at h ⊢
      show _ = mk x0 y0 d0 ok _
      rw [updQ_map]
      split at h
      · next hl =>
        cases h
        rw [AT.look_none] at hl
        rw [hl]; rfl
      · next r hr => cases h; rw [ih _ hr]

theorem Sh.grow {I : Nat → Prop} {m m' : Mem V} {t : AT V} (h : Sh I m t) (hm : ∀ b c, m.cell b = some c → m'.cell b = some c) : Sh I m' t := by
  induction t with
  | nil => trivial
  | node a x y d ok kids ih =>
    obtain ⟨⟨c, hc, h1⟩, hk⟩ := h
    refine ⟨⟨c, hm _ _ hc, h1⟩, fun q => ⟨ih q (hk q).1, ?_⟩⟩
    have h2 := (hk q).2
    revert h2
    cases kids q with
    | nil => exact id
    | node => rintro ⟨c, hc, h⟩; exact ⟨c, hm _ _ hc, h⟩

theorem Lk.grow {I : Nat → Prop} {m m' : Mem V} {p : Option Nat} {t : AT V} (h : Lk I m p t) (hm : ∀ b c, m.cell b = some c → m'.cell b = some c) : Lk I m' p t := by
  cases t with
  | nil => trivial
  | node => obtain ⟨c, hc, h⟩ := h; exact ⟨c, hm _ _ hc, h⟩

/-- A node gets new data. -/
theorem Lk.data {I : Nat → Prop} {m : Mem V} {p : Option Nat} {t : AT V} {w : Nat} {c : Cell V} (h : Lk I m p t) (hc : m.cell w = some c) (d : V) :
    Lk I (m.put w (some { c with d := d })) p t := by
  cases t with
  | nil => trivial
  | node a x y d0 ok kids =>
    obtain ⟨c1, h1, h2, h3⟩ := h
    by_cases e : a = w
    · subst e
      rw [hc] at h1; cases h1
      exact ⟨_, put_same .., h2, h3⟩
    · exact ⟨c1, by rw [put_ne _ _ e]; exact h1, h2, h3⟩

theorem Sh.data {I : Nat → Prop} {m : Mem V} {t : AT V} {w : Nat} {c : Cell V} (h : Sh I m t) (hc : m.cell w = some c) (d : V) (hw : t.cnt w = 0) :
    Sh I (m.put w (some { c with d := d })) t := by
  induction t with
  | nil => trivial
  | node a x y d0 ok kids ih =>
    obtain ⟨⟨c1, h1, h2⟩, hk⟩ := h
    have e : ¬ a = w := fun e => by subst e; rw [cnt_node, if_pos rfl] at hw; omega
    exact ⟨⟨c1, by rw [put_ne _ _ e]; exact h1, h2⟩, fun q => ⟨ih q (hk q).1 (by have := cnt_le kids q w; rw [cnt_node] at hw; omega), (hk q).2.data hc d⟩⟩

theorem setD_sh {I : Nat → Prop} {m : Mem V} {x y : Int} {t : AT V} {w : Nat} {c : Cell V} (h : Sh I m t) (hd : ∀ b, t.cnt b ≤ 1)
    (hl : AT.look x y t = some (w, none)) (hc : m.cell w = some c) (d : V) :
    Sh I (m.put w (some { c with d := d })) (setD x y d t) ∧ ∀ p, Lk I m p t → Lk I (m.put w (some { c with d := d })) p (setD x y d t) := by
  induction t with
  | nil => cases hl
  | node a x0 y0 d0 ok kids ih =>
    obtain ⟨⟨c1, h1, hx, hy, hdd, hkid⟩, hk⟩ := h
    simp only [AT.look] at hl
    simp only [setD]
    by_cases e : x0 = x ∧ y0 = y
    · rw [if_pos e] at hl ⊢
      cases hl
      rw [hc] at h1; cases h1
      refine ⟨⟨⟨_, put_same .., hx, hy, rfl, fun q => by rw [← hkid q]; cases q <;> rfl⟩, fun q => ⟨(hk q).1.data hc d ?_, (hk q).2.data hc d⟩⟩, fun p hp => ?_⟩
      · have h1 := cnt_le kids q w; have h2 := hd w; rw [cnt_node, if_pos rfl] at h2; omega
      · obtain ⟨c2, h2, h3⟩ := hp
        rw [hc] at h2; cases h2
        exact ⟨_, put_same .., h3⟩
    · rw [if_neg e] at hl ⊢
      split at hl
      · cases hl
      · next r hr =>
        cases hl
        have hw := look_pos hr
        have hwa : ¬ a = w := fun e => by
          subst e; have h1 := cnt_le kids (getQuadrant x0 y0 x y) a; have h2 := hd a; rw [cnt_node, if_pos rfl] at h2; omega
        obtain ⟨i1, i2⟩ := ih _ (hk _).1 (fun b => by have h1 := cnt_le kids (getQuadrant x0 y0 x y) b; have h2 := hd b; rw [cnt_node] at h2; omega) hr
        refine ⟨⟨⟨c1, by rw [put_ne _ _ hwa]; exact h1, hx, hy, hdd, fun q => ?_⟩, fun q => ?_⟩, fun p hp => ?_⟩
        · by_cases e2 : q = getQuadrant x0 y0 x y
          · subst e2; rw [updQ_same, setD_root, hkid]
          · rw [updQ_ne _ _ e2, hkid]
        · by_cases e2 : q = getQuadrant x0 y0 x y
          · subst e2; rw [updQ_same]; exact ⟨i1, i2 _ (hk _).2⟩
          · rw [updQ_ne _ _ e2]
            refine ⟨(hk q).1.data hc d ?_, (hk q).2.data hc d⟩
            have h1 := cnt_le2 kids e2 w; have h2 := hd w; rw [cnt_node] at h2; omega
        · obtain ⟨c2, h2, h3⟩ := hp
          exact ⟨c2, by rw [put_ne _ _ hwa]; exact h2, h3⟩

theorem alloc_rc {m : Mem V} {H : Nat → Nat} (h : RC m H) (x y : Int) (d : V) : RC (alloc x y d m).2 H := by
  have hn : m.cell m.next = none := h.fresh _ (Nat.le_refl _)
  have hr : refs m m.next + H m.next = 0 := by have := h.cnt m.next; simp only [Mem.rcOf, hn] at this; omega
  refine ⟨fun b hb => ?_, fun b => ?_⟩
  · have hb : m.next + 1 ≤ b := hb
    have e : b ≠ m.next := by omega
    show (m.put m.next _).cell b = none
    rw [put_ne _ _ e]; exact h.fresh b (by omega)
  · have e1 : refs (alloc x y d m).2 b = refs m b := by
      show total _ (m.next + 1) = _
      simp only [total, refs]
      rw [total_congr (g := fun a => hit (m.cell a) b) fun a ha => by
        show hit ((m.put m.next _).cell a) b = _
        rw [put_ne _ _ (by omega : a ≠ m.next)]]
      show _ + hit ((m.put m.next _).cell m.next) b = _
      rw [put_same]
      simp [hit, Cell.ptrs]
    rw [e1, ← h.cnt b]
    show (m.put m.next _).rcOf b = _
    by_cases e : b = m.next
    · subst e; rw [rcOf_put_same]; simp only [Mem.rcOf, hn]
    · rw [rcOf_put_ne _ _ e]

theorem alloc_new (x y : Int) (d : V) (m : Mem V) : (alloc x y d m).2.cell m.next = some ⟨x, y, d, 0, none, none, none, none, none⟩ := put_same ..

theorem alloc_old {m : Mem V} {H : Nat → Nat} (h : RC m H) (x y : Int) (d : V) (b : Nat) (c : Cell V) (hc : m.cell b = some c) : (alloc x y d m).2.cell b = some c := by
  have e : b ≠ m.next := fun e => by have := lt_next h hc; omega
  show (m.put m.next _).cell b = _
  rw [put_ne _ _ e]; exact hc

theorem alloc_inv {m : Mem V} (x y : Int) (d : V) {b : Nat} {c : Cell V} (e : b ≠ m.next) (hc : (alloc x y d m).2.cell b = some c) : m.cell b = some c := by
  have : (m.put m.next _).cell b = some c := hc
  rwa [put_ne _ _ e] at this

theorem alloc_clean {I : Nat → Prop} {m : Mem V} {H : Nat → Nat} (hrc : RC m H) (h : Clean I m) (x y : Int) (d : V) :
    Clean (fun b => I b ∨ b = m.next) (alloc x y d m).2 := by
  intro b c q k hb hc hk hk'
  have hb' : b ≠ m.next := fun e => hb (.inr e)
  have hc := alloc_inv x y d hb' hc
  obtain ⟨ck, hck⟩ := hrc.kid hc hk
  have := lt_next hrc hck
  exact h b c q k (fun hi => hb (.inl hi)) hc hk (hk'.resolve_right (by omega))

set_option maxHeartbeats 1000000 in
theorem insertH_any {I : Nat → Prop} {m : Mem V} {H : Nat → Nat} {T : AT V} (x y : Int) (d : V) (hrc : RC m (hold H T.root)) (hcl : Clean I m) (hsh : Sh I m T)
    (hlk : Lk I m none T) (hd : ∀ b, T.cnt b ≤ 1) (hI : ∀ b, 0 < T.cnt b → I b) :
    ∃ m' T' I', insertH x y d T.root m = .ok (T'.root, m') ∧ T'.tree = insertPt x y d T.tree ∧ Kept T T' ∧ CStep I m H T.cnt m' T' I' := by
  have mo : ∀ b c, m.cell b = some c → I b ∨ b = m.next → I b := fun b c hc h => h.resolve_right (by have := lt_next hrc hc; omega)
  have old := alloc_old hrc x y d
  have rc0 := alloc_rc hrc x y d
  have new := alloc_new x y d m
  have cl0 := alloc_clean hrc hcl x y d
  have sh0 : ∀ U, Sh I m U → Sh (fun b => I b ∨ b = m.next) (alloc x y d m).2 U := fun U h => (h.mono mo hrc).grow old
  have lk0 : ∀ p U, Lk I m p U → Lk (fun b => I b ∨ b = m.next) (alloc x y d m).2 p U := fun p U h => (h.mono mo hrc).grow old
  cases hroot : T.root with
  | none =>
    have e := root_none hroot
    subst e
    obtain ⟨m1, e1, rc1, f1, l1⟩ := addRef_ok (some m.next) rc0 (fun k hk => by cases hk; exact ⟨_, new⟩)
    obtain ⟨c1, hc1⟩ := l1 _ _ new
    obtain ⟨c0, h0, x1, y1, d1, k1, p1⟩ := f1.cell _ _ hc1
    rw [new] at h0; cases h0
    refine ⟨m1, node m.next x y d true (fun _ => nil), fun b => I b ∨ b = m.next, ?_, rfl, fun _ _ _ h => h.elim, ?_⟩
    · show (addRef (some m.next) (alloc x y d m).2).bind _ = _
      rw [e1]; rfl
    · refine ⟨by rw [f1.next]; exact Nat.le_succ _, by simpa [root] using rc1, ⟨⟨c1, hc1, x1, y1, d1, fun q => by rw [k1 id q]; cases q <;> rfl⟩, fun q => ⟨trivial, trivial⟩⟩,
        ⟨c1, hc1, fun _ => p1 id, fun h => by cases h⟩, fun b => ?_, fun b h => .inr ?_, fun b => ?_, cl0.frame f1 (fun _ h => h.elim), fun U p h1 h2 _ hr => ?_⟩
      · rw [cnt_node]; simp only [cntK, AT.cnt]; split <;> omega
      · rw [cnt_node] at h; simp only [cntK, AT.cnt] at h; split at h <;> omega
      · rw [cnt_node]; simp only [cntK, AT.cnt]; split <;> simp_all
      · have al : ∀ a, U.root = some a → ∃ c, m1.cell a = some c := fun a ha => rc1.held (by have := hr a ha; simp only [hold, AT.root]; omega)
        exact ⟨(sh0 U h1).frame f1 rc1 (fun _ _ => id) (fun _ _ => id) al, (lk0 p U h2).frame f1 (fun _ _ => id) al⟩
  | some r =>
    obtain ⟨⟨w, o⟩, ew, hl⟩ := walk_at x y hsh (hsh.depth_le hrc hd) hroot
    have hw := look_pos hl
    obtain ⟨cw, hcw⟩ := hsh.cell hw
    simp only [insertH, ew, obind_ok]
    cases o with
    | none =>
      obtain ⟨s1, s2⟩ := setD_sh hsh hd hl hcw d
      refine ⟨_, setD x y d T, I, by simp only [upd_eq _ hcw, obind_ok, setD_root, hroot]; rfl, (insertPt_old d hl).symm, kept_setD x y d T, ?_⟩
      refine ⟨Nat.le_refl _, ?_, s1, s2 _ hlk, fun b => by rw [setD_cnt]; exact hd b, fun b h => .inl (by rw [setD_cnt] at h; exact h), fun b => ?_, ?_, fun U p h1 h2 h3 hr => ?_⟩
      · rw [setD_root]
        exact hrc.put hcw (fun b => rfl)
      · rw [setD_cnt]
        constructor
        · intro h
          by_cases e : T.cnt b = 0
          · exact .inl ⟨h, e⟩
          · exact .inr (by omega)
        · exact fun h => h.elim (·.1) (hI b)
      · intro b c q k hb hc hk
        have e : b ≠ w := fun e => by subst e; exact hb (hI b hw)
        rw [put_ne _ _ e] at hc
        exact hcl b c q k hb hc hk
      · refine ⟨h1.data hcw d ?_, h2.data hcw d⟩
        by_contra hn
        have := h3 w (by omega); omega
    | some q =>
      dsimp only
      have hr' : ∀ a, T.root = some a → Anch (alloc x y d m).2 (hold H (some r)) (· = w) a := fun a ha => by
        rw [hroot] at ha; cases ha; exact .held (by rw [hold_self]; omega)
      rw [hroot] at hrc rc0
      have sT := sh0 T hsh
      have hn0 : T.cnt m.next = 0 := by by_contra hn; have := hsh.lt hrc (by omega : 0 < T.cnt m.next); omega
      have hnw : m.next ≠ w := fun e => by rw [← e] at hw; omega
      have hcw0 := old w cw hcw
      obtain ⟨m1, e1, rc1, f1, g1⟩ := assignKid_ok q (some m.next) rc0 hcw0 (fun k hk => by cases hk; exact ⟨_, new⟩)
      obtain ⟨_, cw1, hcw1⟩ := (sT.anch hd hr' hw).step f1 rc1 (fun _ => Nat.le_refl _) (fun b h => h)
      obtain ⟨cn1, hcn1⟩ := rc1.kid hcw1 (q := q) (a := m.next) (by rw [g1 _ hcw1 q, if_pos rfl])
      obtain ⟨m2, e2, rc2, f2, g2⟩ := assignPar_ok (some w) rc1 hcn1 (fun k hk => by cases hk; exact ⟨cw1, hcw1⟩)
      have fr : Fr (alloc x y d m).2 m2 (· = w) (· = m.next) := (f1.mono (fun _ h => h) (fun _ h => h.elim)).trans (f2.mono (fun _ h => h.elim) (fun _ h => h))
      obtain ⟨_, cw2, hcw2⟩ := (sT.anch hd hr' hw).step fr rc2 (fun _ => Nat.le_refl _) (fun b h => h)
      have kw : ∀ c', m2.cell w = some c' → ∀ s, c'.kid s = if s = q then some m.next else cw.kid s := fun c' hc' s => by
        obtain ⟨c1, h1, _, _, _, k1, _⟩ := f2.cell w c' hc'
        rw [k1 id s, g1 c1 h1 s]
      obtain ⟨cn2, hcn2⟩ := rc2.kid hcw2 (q := q) (a := m.next) (by rw [kw _ hcw2 q, if_pos rfl])
      obtain ⟨cz, hz, xz, yz, dz, kz, _⟩ := fr.cell _ cn2 hcn2
      rw [new] at hz; cases hz
      have kz := kz hnw
      have alr : ∀ a, T.root = some a → ∃ c, m2.cell a = some c := fun a ha => by rw [hroot] at ha; cases ha; exact rc2.held (by rw [hold_self]; omega)
      have hrr := att_root m.next x y d hroot
      refine ⟨m2, att m.next x y d T, fun b => I b ∨ b = m.next, ?_, (insertPt_new m.next d hl).symm, kept_att m.next x y d T, ?_⟩
      · show (assignKid w q (some m.next) (alloc x y d m).2).bind (fun m' => (assignPar m.next (some w) m').bind _) = _
        simp only [e1, obind_ok, e2, hrr]
      · refine ⟨by rw [fr.next]; exact Nat.le_succ _, by rw [hrr]; exact rc2, ?_, att_lk m.next x y d hroot ((lk0 none T hlk).frame fr (fun b hb e => ?_) alr), fun b => ?_, fun b h => ?_, fun b => ?_,
          cl0.frame fr (fun b e => by subst e; exact .inl (hI b hw)), fun U p h1 h2 h3 hr => ?_⟩
        · exact att_sh sT hd hl fr rc2 hn0 alr hcw0 kw hcn2 xz yz dz (fun s => (kz s).trans (by cases s <;> rfl)) (g2 cn2 hcn2)
        · subst e; have := root_pos hb; omega
        · have h1 := hd b
          rw [cnt_att]
          by_cases e : b = m.next
          · subst e; rw [if_pos rfl]; omega
          · rw [if_neg e]; omega
        · rw [cnt_att] at h
          by_cases e : b = m.next
          · exact .inr (by omega)
          · rw [if_neg e] at h; exact .inl h
        · rw [cnt_att]
          constructor
          · rintro (h | h)
            · by_cases e : T.cnt b = 0
              · exact .inl ⟨h, e⟩
              · exact .inr (by omega)
            · exact .inr (by rw [if_pos h]; omega)
          · rintro (h | h)
            · exact .inl h.1
            · by_cases e : b = m.next
              · exact .inr e
              · rw [if_neg e] at h; exact .inl (hI b h)
        · have al : ∀ a, U.root = some a → ∃ c, m2.cell a = some c := fun a ha => rc2.held (by have := hr a ha; have := hold_le H (some r) a; omega)
          have n1 : ∀ b, 0 < U.cnt b → b ≠ w := fun b hb e => by subst e; have := h3 b hb; omega
          have n2 : ∀ b, 0 < U.cnt b → b ≠ m.next := fun b hb e => by have := h1.lt hrc hb; omega
          exact ⟨(sh0 U h1).frame fr rc2 n1 n2 al, (lk0 p U h2).frame fr (fun b hb => n2 b (root_pos hb)) al⟩

end Mdds.Quad
