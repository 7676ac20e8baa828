import Verif.Quad.HeapRemove
/-!
`remove` in the heap, as a step of one container among others.
-/
namespace Mdds.Quad

open AT

variable {V : Type}

/-- A call on one container, whose tree had the nodes `N`: afterwards it has the tree `T'`, the nodes in trees of containers are `I'`, and all other trees are
as they were. `H` counts the pointers held elsewhere. -/
structure CStep (I : Nat → Prop) (m : Mem V) (H : Nat → Nat) (N : Nat → Nat) (m' : Mem V) (T' : AT V) (I' : Nat → Prop) : Prop where
  next : m.next ≤ m'.next
  rc : RC m' (hold H T'.root)
  sh : Sh I' m' T'
  lk : Lk I' m' none T'
  one : ∀ b, T'.cnt b ≤ 1
  new : ∀ b, 0 < T'.cnt b → 0 < N b ∨ m.next ≤ b
  inI : ∀ b, I' b ↔ (I b ∧ N b = 0) ∨ 0 < T'.cnt b
  clean : Clean I' m'
  oth : ∀ U p, Sh I m U → Lk I m p U → (∀ b, 0 < U.cnt b → N b = 0) → (∀ a, U.root = some a → 0 < H a) → Sh I' m' U ∧ Lk I' m' p U

theorem others {I I' : Nat → Prop} {m m' : Mem V} {H H0 : Nat → Nat} {H1 : Nat → Nat} {N : Nat → Nat} (hrc : RC m H0) (hI : ∀ b, I' b → I b)
    (f : Fd m m' (fun b => 0 < N b) (fun b => 0 < N b)) (rc : RC m' H1) (hH : ∀ b, H b ≤ H1 b) :
    ∀ U p, Sh I m U → Lk I m p U → (∀ b, 0 < U.cnt b → N b = 0) → (∀ a, U.root = some a → 0 < H a) → Sh I' m' U ∧ Lk I' m' p U := by
  intro U p hU hL hN hr
  have al : ∀ a, U.root = some a → ∃ c, m'.cell a = some c := fun a ha => rc.held (Nat.lt_of_lt_of_le (hr a ha) (hH a))
  have n1 : ∀ b, 0 < U.cnt b → ¬ 0 < N b := fun b hb => by have := hN b hb; omega
  have mo : ∀ b c, m.cell b = some c → I' b → I b := fun b _ _ => hI b
  exact ⟨(hU.mono mo hrc).frameD f rc n1 n1 al, (hL.mono mo hrc).frameD f (fun b hb => n1 b (root_pos hb)) al⟩

theorem leaf_iff {c : Cell V} {kids : Quadrant → AT V} (hk : ∀ q, c.kid q = (kids q).root) (x y : Int) (d : V) (ok : Bool) :
    c.leaf = (mk x y d ok fun q => (kids q).tree).isLeaf := by
  have h1 := hk .ne; have h2 := hk .nw; have h3 := hk .se; have h4 := hk .sw
  simp only [Cell.kid] at h1 h2 h3 h4
  have e : ∀ q, (kids q).root = none ↔ (kids q).tree = .nil := fun q => by
    rw [tree_nil]
    exact ⟨root_none, fun h => by rw [h]; rfl⟩
  simp only [Cell.leaf, mk]
  rw [h1, h2, h3, h4]
  cases ha : kids .ne <;> cases hb : kids .nw <;> cases hc : kids .se <;> cases hd : kids .sw <;> rfl

theorem leaf_kids {x y : Int} {d : V} {ok : Bool} {kids : Quadrant → AT V} (h : (mk x y d ok fun q => (kids q).tree).isLeaf = true) (q : Quadrant) : kids q = nil := by
  rw [mk] at h
  cases ha : kids .ne <;> cases hb : kids .nw <;> cases hc : kids .se <;> cases hd : kids .sw <;> simp [ha, hb, hc, hd, AT.tree, mk, Tree.isLeaf] at h
  cases q <;> assumption

set_option maxHeartbeats 1000000 in
theorem removeH_any {I : Nat → Prop} {m : Mem V} {H : Nat → Nat} {T : AT V} (x y : Int) (hrc : RC m (hold H T.root)) (hcl : Clean I m) (hsh : Sh I m T)
    (hlk : Lk I m none T) (hd : ∀ b, T.cnt b ≤ 1) (hI : ∀ b, 0 < T.cnt b → I b) :
    Ref (removeH x y T.root m) (removePt T.tree x y) fun s R => ∃ T' I', R = T'.tree ∧ s.1 = T'.root ∧ CStep I m H T.cnt s.2 T' I' := by
  have same : CStep I m H T.cnt m T I := ⟨Nat.le_refl _, hrc, hsh, hlk, hd, fun b h => .inl h, fun b => ⟨fun h => by
      by_cases e : T.cnt b = 0
      · exact .inl ⟨h, e⟩
      · exact .inr (by omega), fun h => h.elim (·.1) (hI b)⟩, hcl, fun U p h1 h2 _ _ => ⟨h1, h2⟩⟩
  unfold removePt
  cases T with
  | nil => exact ⟨_, rfl, nil, I, rfl, rfl, same⟩
  | node a x0 y0 d ok kids =>
    obtain ⟨⟨w, o⟩, ew, hl⟩ := walk_at x y hsh (hsh.depth_le hrc hd) rfl
    simp only [removeH, root, ew, obind_ok]
    cases o with
    | some q =>
      rw [removeFrom_absent hl]
      exact ⟨_, rfl, _, I, rfl, rfl, same⟩
    | none =>
      dsimp only
      have hr : (node a x0 y0 d ok kids).root = some a := rfl
      rw [hr] at hrc
      have hw := look_pos hl
      obtain ⟨cw, hcw⟩ := hsh.cell hw
      obtain ⟨m1, e1, rc1, f1, l1⟩ := addRef_ok (some w) hrc (fun k hk => by cases hk; exact ⟨cw, hcw⟩)
      have sh1 : Sh I m1 (node a x0 y0 d ok kids) := hsh.frame f1 rc1 (fun _ _ => id) (fun _ _ => id) (fun b hb => by
        cases hb; exact rc1.held (Nat.lt_of_lt_of_le (by rw [hold_self]; omega) (hold_le _ _ _)))
      have lk1 : Lk I m1 none (node a x0 y0 d ok kids) := hlk.frame f1 (fun _ _ => id) (fun b hb => by
        cases hb; exact rc1.held (Nat.lt_of_lt_of_le (by rw [hold_self]; omega) (hold_le _ _ _)))
      have hcl1 : Clean I m1 := hcl.frame f1 (fun _ h => h.elim)
      obtain ⟨wd, wok, wk, hsub⟩ := sub_node hl
      have shw := sub_sh x y sh1
      rw [hsub] at shw
      obtain ⟨⟨cw1, hcw1, _, _, _, kw1⟩, hkw⟩ := shw
      simp only [e1, obind_ok, get_eq hcw1]
      have hwle : ∀ b, (node w x y wd wok wk).cnt b ≤ (node a x0 y0 d ok kids).cnt b := fun b => by rw [← hsub]; exact sub_le x y _ b
      by_cases hleaf : (mk x y wd wok fun q => (wk q).tree).isLeaf = true
      · rw [if_pos (by rw [leaf_iff kw1 x y wd wok]; exact hleaf)]
        have hwk := leaf_kids hleaf
        have wkn : ∀ s, cw1.kid s = none := fun s => by rw [kw1 s, hwk s]; rfl
        have wcnt : ∀ b, (node w x y wd wok wk).cnt b = if b = w then 1 else 0 := fun b => by rw [cnt_node]; simp [cntK, hwk, AT.cnt]
        by_cases hwa : w = a
        · subst hwa
          -- the root
          rw [if_pos rfl]
          obtain ⟨m2, e2, rc2, f2⟩ := release_ok (some w) rc1
          obtain ⟨m3, e3, rc3, f3⟩ := release_ok (some w) rc2
          have hm : x0 = x ∧ y0 = y := by
            by_contra hm
            have h1 := look_pos (look_child hm hl); have h2 := cnt_le kids (getQuadrant x0 y0 x y) w; have h3 := hd w
            rw [cnt_node, if_pos rfl] at h3; omega
          have hs : sub x y (node w x0 y0 d ok kids) = node w x0 y0 d ok kids := by simp only [sub, if_pos hm]
          rw [hs] at hsub
          cases hsub
          have pu : removeFrom x y true (mk x y d ok fun q => (kids q).tree) = .ok .nil := by rw [removeFrom_mk, if_pos ⟨rfl, rfl⟩, if_pos hleaf]; rfl
          show Ref _ (removeFrom x y true (mk x y d ok fun q => (kids q).tree)) _
          rw [pu]
          have f03 : Fr m m3 nowhere nowhere := (f1.trans f2).trans f3
          have hIw := hI w hw
          refine ⟨(none, m3), by simp only [e2, e3, obind_ok], nil, fun b => I b ∧ b ≠ w, rfl, rfl, ?_⟩
          refine ⟨Nat.le_of_eq f03.next.symm, by simpa [root] using rc3, trivial, trivial, fun b => by simp [AT.cnt], fun b h => absurd h (by simp [AT.cnt]), fun b => ?_, ?_, ?_⟩
          · rw [wcnt]
            simp only [AT.cnt]
            by_cases e : b = w <;> simp [e]
          · intro b c s k hb hc hk hk'
            obtain ⟨c0, h0, _, _, _, k0, _⟩ := f03.cell b c hc
            obtain ⟨c1, h1, _, _, _, k1, _⟩ := (f2.trans f3).cell b c hc
            by_cases e : b = w
            · subst e
              rw [hcw1] at h1; cases h1
              rw [k1 id s, wkn s] at hk; cases hk
            · rw [k0 id s] at hk
              exact hcl b c0 s k (fun hi => hb ⟨hi, e⟩) h0 hk hk'.1
          · exact others hrc (fun b h => h.1) (f03.widen _ _).toFd rc3 (fun b => Nat.le_refl _)
        · rw [if_neg hwa]
          have hm : ¬ (x0 = x ∧ y0 = y) := fun hm => by
            simp only [look, if_pos hm] at hl; cases hl; exact hwa rfl
          obtain ⟨p, pc, g, q1, q2, q3, q4, q5, q6, q7⟩ := above sh1 hl hm hd
          rw [removeFrom_top hm hl, hsub]
          have pu : removeFrom x y false (node w x y wd wok wk).tree = if wok then .ok .nil else .err .general := by
            show removeFrom x y false (mk x y wd wok fun q => (wk q).tree) = _
            rw [removeFrom_mk, if_pos ⟨rfl, rfl⟩, if_pos hleaf]; simp
          rw [pu]
          rw [hsub] at q6
          obtain ⟨c2, hc2, hok, hbad⟩ := q6
          rw [hcw1] at hc2; cases hc2
          have hIw := hI w hw
          cases wok with
          | false =>
            obtain ⟨b, hb, hb'⟩ := hbad rfl
            have := disconnect_err rc1 hcl1 hcw1 hb hb' hIw (fun r h => by rw [wkn r] at h; cases h)
            simp only [this, obind_err]
            rfl
          | true =>
            obtain ⟨m2, e2, rc2, f2, g2⟩ := disconnect_ok rc1 hcw1 (hok rfl) q1 q2 q3
            obtain ⟨m3, e3, rc3, f3⟩ := release_ok (some w) rc2
            have ala : ∃ c, m3.cell a = some c := rc3.held (by rw [hold_self]; omega)
            have f13 : Fr m1 m3 (· = p) nowhere := f2.trans (f3.widen _ _)
            obtain ⟨s3, l3⟩ := q7 m3 _ f13 rc3 ala (fun c' hc' r => by
              obtain ⟨c0, h0, _, _, _, k0, _⟩ := f3.cell p c' hc'
              rw [k0 id r, g2 c0 h0 r])
            have cn := rep_cnt (nil : AT V) hl
            simp only [hsub, wcnt, AT.cnt] at cn
            have one : ∀ b, (rep x y nil (node a x0 y0 d ok kids)).cnt b ≤ 1 := fun b => by have h1 := cn b; have h2 := hd b; rw [cnt_node] at h2; simp only [cntK] at h2; omega
            have cnN : ∀ b, (rep x y nil (node a x0 y0 d ok kids)).cnt b + (if b = w then 1 else 0) = (node a x0 y0 d ok kids).cnt b := fun b => by
              have h1 := cn b; rw [cnt_node]; simp only [cntK]; omega
            have hrr : (rep x y nil (node a x0 y0 d ok kids)).root = some a := by simp only [rep, if_neg hm]; rfl
            have mo : ∀ b c, m3.cell b = some c → (I b ∧ b ≠ w) → I b := fun b _ _ h => h.1
            refine ⟨(some a, m3), by simp only [e2, e3, obind_ok], rep x y nil (node a x0 y0 d ok kids), fun b => I b ∧ b ≠ w, (rep_tree x y nil _).symm, hrr.symm, ?_⟩
            refine ⟨Nat.le_of_eq (f13.next.trans f1.next).symm, by rw [hrr]; exact rc3, s3.mono mo rc3, (l3 none lk1).mono mo rc3, one, fun b h => .inl (by have := cnN b; omega), fun b => ?_, ?_, ?_⟩
            · have h1 := cnN b; have h2 := hd b
              constructor
              · rintro ⟨hi, hbw⟩
                rw [if_neg hbw] at h1
                by_cases e : (node a x0 y0 d ok kids).cnt b = 0
                · exact .inl ⟨hi, e⟩
                · exact .inr (by omega)
              · rintro (⟨hi, h0⟩ | hp)
                · exact ⟨hi, fun e => by subst e; omega⟩
                · exact ⟨hI b (by omega), fun e => by rw [if_pos e] at h1; omega⟩
            · intro b c s k hb hc hk hk'
              obtain ⟨c1, h1, _, _, _, k1, _⟩ := f13.cell b c hc
              by_cases e : b = w
              · subst e
                rw [hcw1] at h1; cases h1
                rw [k1 (fun e => q4 e.symm) s, wkn s] at hk; cases hk
              · have hbI : ¬ I b := fun hi => hb ⟨hi, e⟩
                rw [k1 (fun e' => hbI (e' ▸ hI p q5)) s] at hk
                exact hcl1 b c1 s k hbI h1 hk hk'.1
            · refine others hrc (fun b h => h.1) ((f1.widen _ _).trans (f13.mono (fun b e => ?_) (fun _ h => h.elim))).toFd rc3 (hold_le H _)
              subst e; exact q5
      · rw [if_neg (by rw [leaf_iff kw1 x y wd wok]; exact hleaf)]
        have hw1 : 0 < hold (hold H (some a)) (some w) w := by rw [hold_self]; omega
        have shw : Sh I m1 (node w x y wd wok wk) := by rw [← hsub]; exact sub_sh x y sh1
        have R := removeInnerH_any rc1 hw1 hcl1 shw (fun b => by have h1 := hwle b; have h2 := hd b; omega) (fun b hb => hI b (by have := hwle b; omega))
        have pu : removeFrom x y true (node a x0 y0 d ok kids).tree = (removeInner (node w x y wd wok wk).tree).bind fun c => .ok (repT x y c (node a x0 y0 d ok kids)) := by
          have inner : ∀ top, removeFrom x y top (node w x y wd wok wk).tree = removeInner (node w x y wd wok wk).tree := fun top => by
            show removeFrom x y top (mk x y wd wok fun q => (wk q).tree) = _
            rw [removeFrom_mk, if_pos ⟨rfl, rfl⟩, if_neg hleaf]; rfl
          by_cases hm : x0 = x ∧ y0 = y
          · have hs : sub x y (node a x0 y0 d ok kids) = node a x0 y0 d ok kids := by simp only [sub, if_pos hm]
            rw [hs] at hsub
            rw [hsub, inner]
            simp only [repT, and_self, if_true, obind_id]
          · rw [removeFrom_top hm hl, hsub, inner]
        rw [pu]
        refine Ref.bind R ?_
        rintro m2 R' ⟨t', I', G⟩
        obtain ⟨g1, g2, g3, g4, g5, g6, g7, g8, g9⟩ := G
        obtain ⟨m3, e3, rc3, f3⟩ := release_ok (some w) g3
        have f13 : Fd m1 m3 (fun b => 0 < (node w x y wd wok wk).cnt b) (fun b => 0 < (node w x y wd wok wk).cnt b) := g4.trans (f3.widen _ _).toFd
        have f12 : Fd m1 m2 (fun b => 0 < (sub x y (node a x0 y0 d ok kids)).cnt b) (fun b => 0 < (sub x y (node a x0 y0 d ok kids)).cnt b) := by rw [hsub]; exact g4
        have ala2 : ∀ b, (node a x0 y0 d ok kids).root = some b → ∃ c, m2.cell b = some c := fun b hb => by
          cases hb; exact g3.held (Nat.lt_of_lt_of_le (by rw [hold_self]; omega) (hold_le _ _ _))
        have hII : ∀ b, I' b → I b := fun b h => ((g8 b).1 h).1
        have mo : ∀ b c, m1.cell b = some c → I' b → I b := fun b _ _ => hII b
        obtain ⟨s2, k2⟩ := rep_sh (sh1.mono mo rc1) hl hd f12 g3 ala2 (by rw [hsub]; exact g2) g5 g6
        have cn := rep_cnt t' hl
        rw [hsub] at cn
        have hrr : (rep x y t' (node a x0 y0 d ok kids)).root = some a := rep_root (by rw [hsub]; exact g2)
        have ala3 : ∀ b, (rep x y t' (node a x0 y0 d ok kids)).root = some b → ∃ c, m3.cell b = some c := fun b hb => by
          rw [hrr] at hb; cases hb; exact rc3.held (by rw [hold_self]; omega)
        refine ⟨(some a, m3), by simp only [e3, obind_ok], rep x y t' (node a x0 y0 d ok kids), I', by rw [rep_tree, g1], hrr.symm, ?_⟩
        refine ⟨Nat.le_of_eq (f13.next.trans f1.next).symm, by rw [hrr]; exact rc3, s2.frame f3 rc3 (fun _ _ => id) (fun _ _ => id) ala3, (k2 none (lk1.mono mo rc1)).frame f3 (fun _ _ => id) ala3,
          fun b => ?_, fun b h => .inl ?_, fun b => ?_, g9.frame f3 (fun _ h => h.elim), ?_⟩
        · have h1 := cn b; have h2 := g7 b; have h3 := hd b; omega
        · have h1 := cn b; have h2 := g7 b; omega
        · have h1 := cn b; have h2 := g7 b; have h3 := hd b; have h4 := hwle b
          rw [g8 b]
          constructor
          · rintro ⟨hi, hn⟩
            by_cases e : (node a x0 y0 d ok kids).cnt b = 0
            · exact .inl ⟨hi, e⟩
            · refine .inr ?_
              by_cases e2 : 0 < (node w x y wd wok wk).cnt b
              · have := hn e2; omega
              · omega
          · rintro (⟨hi, h0⟩ | hp)
            · exact ⟨hi, fun h => by omega⟩
            · exact ⟨hI b (by omega), fun h => by omega⟩
        · refine others hrc hII ((f1.widen _ _).toFd.trans (f13.mono (fun b h => ?_) (fun b h => ?_))) rc3 (hold_le H _)
          · have := hwle b; omega
          · have := hwle b; omega

end Mdds.Quad
