import Verif.Quad.HeapStep
/-!
`clear`, copying and `find` in the heap, for trees of any shape.
-/
namespace Mdds.Quad

open AT

variable {V : Type}

/-! ### `clear` -/

/-- One child in `disconnect_all_nodes`. -/
def dropH (f p : Nat) (q : Quadrant) (m : Mem V) : Outcome (Mem V) := (m.get p).bind fun c => match c.kid q with
  | none => .ok m
  | some k => (disconnectAll f k m).bind (assignKid p q none)

theorem disconnectAll_drops (f p : Nat) (m : Mem V) : disconnectAll (f + 1) p m = (addRef (some p) m).bind fun m =>
    (dropH f p .ne m).bind fun m => (dropH f p .nw m).bind fun m => (dropH f p .se m).bind fun m => (dropH f p .sw m).bind fun m =>
      (assignPar p none m).bind (release (some p)) := rfl

/-- What `disconnect_all_nodes` leaves: no node of the tree has children any more. -/
structure Dropped (m : Mem V) (H : Nat → Nat) (N : Nat → Nat) (m' : Mem V) : Prop where
  rc : RC m' H
  fr : Fr m m' (fun b => 0 < N b) (fun b => 0 < N b)
  bare : ∀ b c, 0 < N b → m'.cell b = some c → ∀ q, c.kid q = none

def DropOk (I : Nat → Prop) (f : Nat) (t : AT V) : Prop := ∀ (m : Mem V) (H : Nat → Nat) (r : Nat), RC m H → Sh I m t → t.root = some r → (∀ b, t.cnt b ≤ 1) →
    ∃ m', disconnectAll f r m = .ok m' ∧ Dropped m H t.cnt m'

/-- Between the children. -/
structure DropHalf (I : Nat → Prop) (m0 : Mem V) (H : Nat → Nat) (p : Nat) (x y : Int) (d : V) (ok : Bool) (kids ku : Quadrant → AT V) (m : Mem V) : Prop where
  rc : RC m (hold H (some p))
  fr : Fr m0 m (fun b => 0 < (node p x y d ok kids).cnt b) (fun b => 0 < (node p x y d ok kids).cnt b)
  sh : Sh I m (node p x y d ok ku)
  le : ∀ b, cntK ku b ≤ cntK kids b
  bare : ∀ b c, cntK ku b < cntK kids b → m.cell b = some c → ∀ q, c.kid q = none

theorem drop_spec {I : Nat → Prop} {f : Nat} {m0 m : Mem V} {H : Nat → Nat} {p : Nat} {x y : Int} {d : V} {ok : Bool} {kids ku : Quadrant → AT V} {q : Quadrant}
    (ih : DropOk I f (kids q)) (hq : ku q = kids q) (hd : ∀ b, (node p x y d ok kids).cnt b ≤ 1) (h : DropHalf I m0 H p x y d ok kids ku m) :
    ∃ m', dropH f p q m = .ok m' ∧ DropHalf I m0 H p x y d ok kids (updQ ku q nil) m' := by
  obtain ⟨hrc, hfr, hsh, hle, hbare⟩ := h
  obtain ⟨c, hc⟩ := hrc.held (a := p) (by rw [hold_self]; omega)
  have hkid : ∀ q, c.kid q = (ku q).root := fun q => by
    obtain ⟨c0, h0, _, _, _, hk⟩ := hsh.1
    rw [hc] at h0; cases h0; exact hk q
  simp only [dropH, get_eq hc, obind_ok, hkid q, hq]
  have hup := fun b => cntK_upd ku q nil b
  simp only [hq, AT.cnt] at hup
  cases hr : (kids q).root with
  | none =>
    have e := root_none hr
    have e2 : updQ ku q nil = ku := by
      funext s; simp only [updQ]; split
      · next h => rw [h, hq, e]
      · rfl
    exact ⟨m, rfl, by rw [e2]; exact ⟨hrc, hfr, hsh, hle, hbare⟩⟩
  | some k =>
    have hdk : ∀ b, (kids q).cnt b ≤ 1 := fun b => by have h1 := cnt_le kids q b; have h2 := hd b; rw [cnt_node] at h2; omega
    obtain ⟨m1, e1, D⟩ := ih m _ k hrc (by rw [← hq]; exact (hsh.2 q).1) hr hdk
    obtain ⟨c1, hc1⟩ := D.rc.held (a := p) (by rw [hold_self]; omega)
    obtain ⟨m2, e2, rc2, f2, g2⟩ := assignKid_ok q none D.rc hc1 (fun k hk => by cases hk)
    obtain ⟨c2, hc2⟩ := rc2.held (a := p) (by rw [hold_self]; omega)
    have hpk : ∀ r, (kids r).cnt p = 0 := fun r => by have h1 := cnt_le kids r p; have h2 := hd p; rw [cnt_node, if_pos rfl] at h2; omega
    obtain ⟨cz, hz, _, _, _, kz, _⟩ := D.fr.cell p c1 hc1
    rw [hc] at hz; cases hz
    have kz := kz (by rw [hpk q]; omega)
    have frU : Fr m m2 (fun b => b = p ∨ 0 < (ku q).cnt b) (fun b => 0 < (ku q).cnt b) := by
      rw [hq]
      exact (D.fr.mono (fun b h => .inr h) (fun _ h => h)).trans (f2.mono (fun b h => .inl h) (fun _ h => h.elim))
    refine ⟨m2, by simp only [e1, obind_ok, e2], rc2, hfr.trans (frU.mono (fun b h => ?_) (fun b h => ?_)), ?_, fun b => by have h1 := hup b; have h2 := hle b; omega, fun b c' hb hc' s => ?_⟩
    · rw [cnt_node]
      rcases h with h | h
      · rw [if_pos h]; omega
      · rw [hq] at h; have := cnt_le kids q b; omega
    · rw [hq] at h; have := cnt_le kids q b; rw [cnt_node]; omega
    · refine hsh.replace (fun b => ?_) frU rc2 hc hc2 (fun r => by rw [g2 c2 hc2 r, kz r]; rfl) trivial trivial
      have h1 := hd b; have h2 := hle b; rw [cnt_node] at h1 ⊢; omega
    · have h1 := hup b; have h2 := hle b; have h3 := cnt_le ku q b; rw [hq] at h3
      have hbp : b ≠ p := fun e => by
        subst e; have h2 := hd b; rw [cnt_node, if_pos rfl] at h2; omega
      obtain ⟨ca, ha, _, _, _, ka, _⟩ := f2.cell b c' hc'
      rw [ka hbp s]
      by_cases e : 0 < (kids q).cnt b
      · exact D.bare b ca e ha s
      · obtain ⟨cb, hb', _, _, _, kb, _⟩ := D.fr.cell b ca ha
        rw [kb e s]
        exact hbare b cb (by omega) hb' s

theorem disconnectAll_any (I : Nat → Prop) : ∀ (t : AT V) (f : Nat), t.depth ≤ f → DropOk I f t := by
  intro t
  induction t with
  | nil => intro f hf m H r _ _ hr; cases hr
  | node p x y d ok kids ih =>
    intro f hf m H r hrc hsh hr hd
    cases hr
    obtain ⟨f, rfl⟩ : ∃ g, f = g + 1 := ⟨f - 1, by simp only [depth] at hf; omega⟩
    have hi : ∀ q, DropOk I f (kids q) := fun q => ih q f (by have := depth_kid p x y d ok kids q; omega)
    obtain ⟨c, hc⟩ := hsh.cell (root_pos rfl : 0 < (node p x y d ok kids).cnt p)
    obtain ⟨m0, e0, rc0, f0, l0⟩ := addRef_ok (some p) hrc (fun k hk => by cases hk; exact ⟨c, hc⟩)
    have h0 : DropHalf I m H p x y d ok kids kids m0 := ⟨rc0, f0.widen _ _, hsh.frame f0 rc0 (fun _ _ => id) (fun _ _ => id)
      (fun b hb => by cases hb; exact rc0.held (by rw [hold_self]; omega)), fun b => Nat.le_refl _, fun b c h => absurd h (by omega)⟩
    obtain ⟨m1, e1, h1⟩ := drop_spec (hi .ne) rfl hd h0
    obtain ⟨m2, e2, h2⟩ := drop_spec (ku := updQ kids .ne nil) (hi .nw) rfl hd h1
    obtain ⟨m3, e3, h3⟩ := drop_spec (ku := updQ (updQ kids .ne nil) .nw nil) (hi .se) rfl hd h2
    obtain ⟨m4, e4, h4⟩ := drop_spec (ku := updQ (updQ (updQ kids .ne nil) .nw nil) .se nil) (hi .sw) rfl hd h3
    obtain ⟨c4, hc4⟩ := h4.rc.held (a := p) (by rw [hold_self]; omega)
    obtain ⟨m5, e5, rc5, f5, g5⟩ := assignPar_ok none h4.rc hc4 (fun k hk => by cases hk)
    obtain ⟨m6, e6, rc6, f6⟩ := release_ok (some p) rc5
    have hn : ∀ b, cntK (updQ (updQ (updQ (updQ kids .ne nil) .nw nil) .se nil) .sw nil) b = 0 := fun b => rfl
    refine ⟨m6, ?_, rc6, (h4.fr.trans (f5.mono (fun _ h => h.elim) (fun b e => ?_))).trans (f6.widen _ _), fun b c' hb hc' q => ?_⟩
    · simp only [disconnectAll_drops, e0, e1, e2, e3, e4, e5, e6, obind_ok]
    · subst e; exact root_pos rfl
    · obtain ⟨ca, ha, _, _, _, ka, _⟩ := f6.cell b c' hc'
      obtain ⟨cb, hb', _, _, _, kb, _⟩ := f5.cell b ca ha
      rw [ka id q, kb id q]
      by_cases e : b = p
      · subst e
        obtain ⟨⟨cc, hcc, _, _, _, kc⟩, _⟩ := h4.sh
        rw [hcc] at hb'; cases hb'
        rw [kc q]; cases q <;> rfl
      · rw [cnt_node, if_neg e] at hb
        exact h4.bare b cb (by rw [hn b]; omega) hb' q

theorem clearH_any {I : Nat → Prop} {m : Mem V} {H : Nat → Nat} {T : AT V} (hrc : RC m (hold H T.root)) (hcl : Clean I m) (hsh : Sh I m T)
    (hd : ∀ b, T.cnt b ≤ 1) : ∃ m', clearH T.root m = .ok m' ∧ CStep I m H T.cnt m' nil fun b => I b ∧ T.cnt b = 0 := by
  cases hr : T.root with
  | none =>
    have e := root_none hr
    subst e
    refine ⟨m, rfl, Nat.le_refl _, hrc, trivial, trivial, fun b => Nat.zero_le _, fun b h => absurd h (by simp [AT.cnt]), fun b => by simp [AT.cnt], ?_, fun U p h1 h2 _ _ => ?_⟩
    · simpa [AT.cnt] using hcl
    · simpa [AT.cnt] using And.intro h1 h2
  | some r =>
    rw [hr] at hrc
    obtain ⟨m1, e1, D⟩ := disconnectAll_any I T _ (hsh.depth_le hrc hd) m _ r hrc hsh hr hd
    obtain ⟨m2, e2, rc2, f2⟩ := release_ok (some r) D.rc
    have f02 := D.fr.trans (f2.widen _ _)
    refine ⟨m2, by simp only [clearH, e1, e2, obind_ok], Nat.le_of_eq f02.next.symm, by simpa [root] using rc2, trivial, trivial, fun b => Nat.zero_le _,
      fun b h => absurd h (by simp [AT.cnt]), fun b => by simp [AT.cnt], ?_, others hrc (fun b h => h.1) f02.toFd rc2 (fun b => Nat.le_refl _)⟩
    intro b c q k hb hc hk hk'
    obtain ⟨c1, h1, _, _, _, k1, _⟩ := f2.cell b c hc
    by_cases e : 0 < T.cnt b
    · rw [k1 id q, D.bare b c1 e h1 q] at hk; cases hk
    · obtain ⟨c0, h0, _, _, _, k0, _⟩ := f02.cell b c hc
      rw [k0 e q] at hk
      exact hcl b c0 q k (fun hi => hb ⟨hi, by omega⟩) h0 hk hk'.1

/-! ### Copying -/

theorem allDataH_any {I : Nat → Prop} {m : Mem V} {t : AT V} {f : Nat} (h : Sh I m t) (hf : t.depth ≤ f) : allDataH f t.root m = .ok (allData t.tree) := by
  induction t generalizing f with
  | nil => cases f <;> rfl
  | node a x y d ok kids ih =>
    obtain ⟨f, rfl⟩ : ∃ g, f = g + 1 := ⟨f - 1, by simp only [depth] at hf; omega⟩
    obtain ⟨⟨c, hc, rfl, rfl, rfl, hkid⟩, hk⟩ := h
    have hi : ∀ q, allDataH f (c.kid q) m = .ok (allData (kids q).tree) := fun q => by
      rw [hkid q]; exact ih q (hk q).1 (by have := depth_kid a c.x c.y c.d ok kids q; omega)
    have h1 := hi .ne; have h2 := hi .nw; have h3 := hi .se; have h4 := hi .sw
    simp only [Cell.kid] at h1 h2 h3 h4
    simp only [AT.root, allDataH, get_eq hc, obind_ok, h1, h2, h3, h4]
    rfl

theorem CStep.trans {I I1 I2 : Nat → Prop} {m m1 m2 : Mem V} {H N : Nat → Nat} {T1 T2 : AT V} (hf : ∀ b, m.next ≤ b → m.cell b = none) (h : CStep I m H N m1 T1 I1)
    (h' : CStep I1 m1 H T1.cnt m2 T2 I2) (hN : ∀ b, I b → b < m.next) : CStep I m H N m2 T2 I2 := by
  refine ⟨Nat.le_trans h.next h'.next, h'.rc, h'.sh, h'.lk, h'.one, fun b hb => ?_, fun b => ?_, h'.clean, fun U p h1 h2 h3 hr => ?_⟩
  · rcases h'.new b hb with e | e
    · exact h.new b e
    · exact .inr (Nat.le_trans h.next e)
  · rw [h'.inI b, h.inI b]
    constructor
    · rintro (⟨h1 | h1, h2⟩ | h1)
      · exact .inl h1
      · omega
      · exact .inr h1
    · rintro (⟨h1, h2⟩ | h1)
      · by_cases e : T1.cnt b = 0
        · exact .inl ⟨.inl ⟨h1, h2⟩, e⟩
        · exfalso
          have := hN b h1
          rcases h.new b (by omega) with e | e <;> omega
      · exact .inr h1
  · obtain ⟨a1, a2⟩ := h.oth U p h1 h2 h3 hr
    refine h'.oth U p a1 a2 (fun b hb => ?_) hr
    by_contra hn
    rcases h.new b (by omega) with e | e
    · have := h3 b hb; omega
    · obtain ⟨c, hc⟩ := h1.cell hb
      rw [hf b e] at hc; cases hc

theorem CStep.lt {I I' : Nat → Prop} {m m' : Mem V} {H N : Nat → Nat} {T' : AT V} (h : CStep I m H N m' T' I') (hN : ∀ b, I b → b < m.next) : ∀ b, I' b → b < m'.next := by
  intro b hb
  rcases (h.inI b).1 hb with h1 | h1
  · exact Nat.lt_of_lt_of_le (hN b h1.1) h.next
  · exact h.sh.lt h.rc h1

theorem insertAllH_any : ∀ (l : List (Pt V)) {I : Nat → Prop} {m : Mem V} {H : Nat → Nat} {T : AT V}, RC m (hold H T.root) → Clean I m → Sh I m T → Lk I m none T →
    (∀ b, T.cnt b ≤ 1) → (∀ b, 0 < T.cnt b → I b) → (∀ b, I b → b < m.next) →
    ∃ m' T' I', insertAllH l T.root m = .ok (T'.root, m') ∧ T'.tree = insertAll T.tree l ∧ CStep I m H T.cnt m' T' I' := by
  intro l
  induction l with
  | nil =>
    intro I m H T hrc hcl hsh hlk hd hI hlt
    refine ⟨m, T, I, rfl, rfl, Nat.le_refl _, hrc, hsh, hlk, hd, fun b h => .inl h, fun b => ⟨fun h => ?_, fun h => h.elim (·.1) (hI b)⟩, hcl, fun U p h1 h2 _ _ => ⟨h1, h2⟩⟩
    by_cases e : T.cnt b = 0
    · exact .inl ⟨h, e⟩
    · exact .inr (by omega)
  | cons p l ih =>
    intro I m H T hrc hcl hsh hlk hd hI hlt
    obtain ⟨m1, T1, I1, e1, t1, _, s1⟩ := insertH_any p.x p.y p.d hrc hcl hsh hlk hd hI
    obtain ⟨m2, T2, I2, e2, t2, s2⟩ := ih s1.rc s1.clean s1.sh s1.lk s1.one (fun b h => (s1.inI b).2 (.inr h)) (s1.lt hlt)
    refine ⟨m2, T2, I2, by simp only [insertAllH, e1, obind_ok, e2], ?_, s1.trans hrc.fresh s2 hlt⟩
    rw [t2, t1]; rfl

/-! ### `find` -/

theorem findNode_mk (px py : Int) (x y : Int) (d : V) (ok : Bool) (k : Quadrant → Tree V) :
    findNode px py (mk x y d ok k) = if x = px ∧ y = py then some d else findNode px py (k (getQuadrant x y px py)) := by
  rw [mk, findNode]
  split
  · rfl
  · cases getQuadrant x y px py <;> rfl

/-- What `find` makes of the end of the walk. -/
def foundAt (m : Mem V) (w : Nat) : Option Quadrant → Outcome V
  | some _ => .err .dataNotFound
  | none => (m.get w).bind fun c => .ok c.d

theorem find_look {I : Nat → Prop} {m : Mem V} (x y : Int) {t : AT V} (h : Sh I m t) {w : Nat} {o : Option Quadrant} (hl : AT.look x y t = some (w, o)) :
    foundAt m w o = find t.tree x y := by
  induction t with
  | nil => cases hl
  | node a x0 y0 d ok kids ih =>
    obtain ⟨⟨c, hc, rfl, rfl, rfl, hkid⟩, hk⟩ := h
    show _ = find (mk c.x c.y c.d ok fun q => (kids q).tree) x y
    rw [find, findNode_mk]
    simp only [AT.look] at hl
    by_cases e : c.x = x ∧ c.y = y
    · rw [if_pos e] at hl ⊢
      cases hl
      simp [foundAt, get_eq hc]
    · rw [if_neg e] at hl ⊢
      split at hl
      · next hn => cases hl; rw [AT.look_none] at hn; rw [hn]; rfl
      · next r hr => cases hl; exact ih _ (hk _).1 hr

theorem findH_any {I : Nat → Prop} {m : Mem V} {H : Nat → Nat} {T : AT V} (x y : Int) (hrc : RC m H) (hsh : Sh I m T) (hd : ∀ b, T.cnt b ≤ 1) :
    findH x y T.root m = find T.tree x y := by
  cases hroot : T.root with
  | none => rw [root_none hroot]; rfl
  | some r =>
    obtain ⟨⟨w, o⟩, ew, hl⟩ := walk_at x y hsh (hsh.depth_le hrc hd) hroot
    simp only [findH, ew, obind_ok]
    rw [← find_look x y hsh hl]
    cases o <;> rfl

end Mdds.Quad
