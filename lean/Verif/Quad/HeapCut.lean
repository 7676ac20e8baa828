import Verif.Quad.HeapShape
/-!
`adjust_quad` and `set_new_root` in the heap, for trees of any shape.
-/
namespace Mdds.Quad

open AT

variable {V : Type}

/-- How often an address occurs in the trees of a list. -/
def cntAll : List (AT V) → Nat → Nat
  | [], _ => 0
  | u :: us, b => u.cnt b + cntAll us b

theorem cntAll_append (us vs : List (AT V)) (b : Nat) : cntAll (us ++ vs) b = cntAll us b + cntAll vs b := by
  induction us with
  | nil => simp [cntAll]
  | cons u us ih => simp only [List.cons_append, cntAll, ih]; omega

theorem cnt_le_cntAll {us : List (AT V)} {u : AT V} (h : u ∈ us) (b : Nat) : u.cnt b ≤ cntAll us b := by
  induction us with
  | nil => cases h
  | cons v us ih =>
    simp only [cntAll]
    rcases List.mem_cons.1 h with e | h
    · subst e; omega
    · have := ih h; omega

/-- Every tree of the list has its root in the list of addresses. -/
theorem root_mem {us : List (AT V)} {as : List Nat} (h : us.map root = as.map some) {u : AT V} (hu : u ∈ us) {a : Nat} (ha : u.root = some a) : a ∈ as := by
  have : some a ∈ us.map root := ha ▸ List.mem_map_of_mem hu
  rw [h] at this
  obtain ⟨b, hb, e⟩ := List.mem_map.1 this
  cases e; exact hb

theorem adjustQuad_mk (xr yr : Int × Int) (dir : Dir) (x y : Int) (d : V) (ok : Bool) (k : Quadrant → Tree V) :
    adjustQuad xr yr dir (mk x y d ok k) = if hatched xr yr x y then (if ok then .ok (.nil, [mk x y d ok k]) else .err .general) else
      (adjustQuad xr yr dir (k (dirSides dir).1)).bind fun r1 => (adjustQuad xr yr dir (k (dirSides dir).2)).bind fun r2 =>
        .ok (mk x y d ok (updQ (updQ k (dirSides dir).1 r1.1) (dirSides dir).2 r2.1), r1.2 ++ r2.2) := by
  cases dir <;> rfl

theorem dirSides_ne (dir : Dir) : (dirSides dir).1 ≠ (dirSides dir).2 := by cases dir <;> decide

/-- What `adjust_quad` leaves: `t'` in place of `t` below quadrant `qq` of `p`, and the trees `us` cut off, held by the list. -/
structure Adj (I : Nat → Prop) (m : Mem V) (H : Nat → Nat) (p : Nat) (qq : Quadrant) (cp : Cell V) (t : AT V) (l : List Nat)
    (s : List Nat × Mem V) (r : Tree V × List (Tree V)) (t' : AT V) (us : List (AT V)) (as : List Nat) : Prop where
  list : s.1 = l ++ as
  ads : us.map root = as.map some
  tree1 : r.1 = t'.tree
  trees : r.2 = us.map tree
  rc : RC s.2 (holds H as)
  fr : Fr m s.2 (fun b => b = p ∨ 0 < t.cnt b) (fun b => 0 < t.cnt b)
  sh : Sh I s.2 t'
  lk : Lk I s.2 (some p) t'
  shs : ∀ u ∈ us, Sh I s.2 u
  cnt : ∀ b, t'.cnt b + cntAll us b = t.cnt b
  kid : ∀ cp', s.2.cell p = some cp' → ∀ r, cp'.kid r = if r = qq then t'.root else cp.kid r

theorem kidOf_eq {m : Mem V} {a : Nat} {c : Cell V} (h : m.cell a = some c) (q : Quadrant) : kidOf a q m = .ok (c.kid q) := by
  simp [kidOf, get_eq h]

set_option maxHeartbeats 1000000 in
theorem adjust_spec (xr yr : Int × Int) (dir : Dir) (I : Nat → Prop) : ∀ (t : AT V) (f p : Nat) (qq : Quadrant) (cp : Cell V) (l : List Nat)
    (m : Mem V) (H : Nat → Nat), RC m H → Clean I m → Sh I m t → Lk I m (some p) t → (∀ b, t.cnt b ≤ 1) → (∀ b, 0 < t.cnt b → I b) → t.cnt p = 0 → I p →
    m.cell p = some cp → cp.kid qq = t.root → (∀ r b, r ≠ qq → t.root = some b → cp.kid r ≠ some b) →
    Anch m H (fun b => b = p ∨ 0 < t.cnt b) p → t.depth ≤ f →
    Ref (adjustH xr yr dir f t.root l m) (adjustQuad xr yr dir t.tree) fun s r => ∃ t' us as, Adj I m H p qq cp t l s r t' us as := by
  intro t
  induction t with
  | nil =>
    intro f p qq cp l m H hrc hcl hsh hlk hd hI hp hIp hcp hq hu hanch hf
    refine ⟨(l, m), by cases f <;> rfl, nil, [], [], ?_⟩
    exact ⟨by simp, rfl, rfl, rfl, by simpa using hrc, .refl .., trivial, trivial, fun u h => (nomatch h), fun b => rfl, fun cp' h r => by
      rw [hcp] at h; cases h
      split
      · next e => rw [e]; exact hq
      · rfl⟩
  | node a x y d ok kids ih =>
    intro f p qq cp l m H hrc hcl hsh hlk hd hI hp hIp hcp hq hu hanch hf
    obtain ⟨f, rfl⟩ : ∃ g, f = g + 1 := ⟨f - 1, by simp only [depth] at hf; omega⟩
    have hpa : p ≠ a := fun e => by subst e; rw [cnt_node, if_pos rfl] at hp; omega
    have hcnt : ∀ b, (node a x y d ok kids).cnt b = (if b = a then 1 else 0) + cntK kids b := fun b => rfl
    have hak : cntK kids a = 0 := by have := hd a; rw [hcnt, if_pos rfl] at this; omega
    have hIa : I a := hI a (root_pos rfl)
    have hsh0 := hsh
    obtain ⟨⟨c, hc, hx, hy, hdd, hkid⟩, hk⟩ := hsh
    obtain ⟨m1, e1, r1, f1, l1⟩ := addRef_ok (some a) hrc (fun k hk => by cases hk; exact ⟨c, hc⟩)
    obtain ⟨c1, hc1⟩ := l1 a c hc
    obtain ⟨c0, h0, x0, y0, d0, k0, p0⟩ := f1.cell a c1 hc1
    rw [hc] at h0; cases h0
    have k1 := k0 id; have p1 := p0 id
    clear k0 p0
    have hcl1 := hcl.frame f1 (fun _ => False.elim)
    obtain ⟨cp1, hcp1⟩ := l1 p cp hcp
    obtain ⟨cp0, h0, _, _, _, kp0, _⟩ := f1.cell p cp1 hcp1
    rw [hcp] at h0; cases h0
    have kp1 := kp0 id
    clear kp0
    have hsh1 : Sh I m1 (node a x y d ok kids) := hsh0.frame f1 r1 (fun _ _ => id) (fun _ _ => id) (fun b hb => by cases hb; exact ⟨c1, hc1⟩)
    have hself : ∀ r, c1.kid r ≠ some a := fun r h => by
      rw [k1 r, hkid r] at h
      have := root_pos h
      have := cnt_le kids r a
      omega
    show Ref (adjustH xr yr dir (f + 1) (some a) l m) (adjustQuad xr yr dir (mk x y d ok fun q => (kids q).tree)) _
    rw [adjustQuad_mk]
    simp only [adjustH, e1, obind_ok, get_eq hc1, x0, y0, hx, hy]
    by_cases hh : hatched xr yr x y = true
    · rw [if_pos hh]
      simp only [if_pos hh]
      obtain ⟨ca, hca, hok, hbad⟩ := hlk
      rw [hc] at hca; cases hca
      cases ok with
      | false =>
        obtain ⟨b, hb, hb'⟩ := hbad rfl
        have := disconnect_err r1 hcl1 hc1 (p1.trans hb) hb' hIa hself
        simp only [this, obind_err]
        rfl
      | true =>
        obtain ⟨m2, e2, r2, f2, g2⟩ := disconnect_ok (q := qq) r1 hc1 (p1.trans (hok rfl)) hcp1 ((kp1 qq).trans hq)
          (fun r hr => by rw [kp1 r]; exact hu r a hr rfl)
        have hla : ∀ {m' : Mem V} {H' : Nat → Nat}, RC m' H' → (0 < H' a) → ∃ c, m'.cell a = some c := fun h h' => h.held h'
        obtain ⟨c2, hc2⟩ := r2.held (a := a) (by rw [hold_self]; omega)
        obtain ⟨m3, e3, r3, f3, g3⟩ := assignPar_ok none r2 hc2 (fun k hk => by cases hk)
        obtain ⟨c3, hc3⟩ := r3.held (a := a) (by rw [hold_self]; omega)
        obtain ⟨m4, e4, r4, f4, l4⟩ := addRef_ok (some a) r3 (fun k hk => by cases hk; exact ⟨c3, hc3⟩)
        obtain ⟨m5, e5, r5, f5⟩ := release_ok (some a) r4
        simp only [e2, e3, e4, e5, obind_ok, if_true]
        have fr1 : Fr m m5 (fun b => b = p) (fun b => b = a) :=
          ((((f1.widen _ _).trans (f2.mono (fun _ h => h) (fun _ h => h.elim))).trans (f3.mono (fun _ h => h.elim) (fun _ h => h))).trans (f4.widen _ _)).trans
            (f5.widen _ _)
        have alive : ∃ c, m5.cell a = some c := r5.held (by rw [hold_self]; omega)
        obtain ⟨c5, hc5⟩ := alive
        obtain ⟨c0, h0, x5, y5, d5, k5, _⟩ := fr1.cell a c5 hc5
        rw [hc] at h0; cases h0
        have k5 := k5 (fun h => hpa h.symm)
        refine ⟨(l ++ [a], m5), rfl, nil, [node a x y d true kids], [a], ?_⟩
        refine ⟨rfl, rfl, rfl, rfl, ?_, ?_, trivial, trivial, fun u hu => ?_, fun b => by simp [cntAll, AT.cnt], fun cp' hcp' r => ?_⟩
        · rw [holds_cons, holds_nil]; exact r5
        · exact fr1.mono (fun b h => .inl h) (fun b h => by subst h; rw [hcnt, if_pos rfl]; omega)
        · rw [List.mem_singleton] at hu; subst hu
          refine ⟨⟨c5, hc5, x5.trans hx, y5.trans hy, d5.trans hdd, fun q => (k5 q).trans (hkid q)⟩, fun q => ?_⟩
          have al : ∀ b, (kids q).root = some b → ∃ c, m5.cell b = some c := fun b hb => r5.kid hc5 (q := q) (by rw [k5 q, hkid q]; exact hb)
          have hne : ∀ b, 0 < (kids q).cnt b → b ≠ a := fun b hb e => by
            subst e; have := cnt_le kids q b; omega
          have hnp : ∀ b, 0 < (kids q).cnt b → b ≠ p := fun b hb e => by
            subst e; have := cnt_le kids q b; rw [hcnt] at hp; omega
          exact ⟨(hk q).1.frame fr1 r5 hnp hne al, (hk q).2.frame fr1 (fun b hb => hne b (root_pos hb)) al⟩
        · have f25 : Fr m2 m5 nowhere (fun b => b = a) :=
            ((f3.mono (fun _ h => h) (fun _ h => h)).trans (f4.widen _ _)).trans (f5.widen _ _)
          obtain ⟨cp2, h2, _, _, _, k2, _⟩ := f25.cell p cp' hcp'
          rw [k2 id r, g2 cp2 h2 r, kp1 r]
          rfl
    · rw [if_neg hh]
      simp only [if_neg hh]
      have hs := dirSides_ne dir
      revert hs
      generalize (dirSides dir).1 = s1
      generalize (dirSides dir).2 = s2
      intro hs
      have hsk : ∀ q b, 0 < (kids q).cnt b → 0 < (node a x y d ok kids).cnt b := fun q b hb => by
        have := cnt_le kids q b
        rw [hcnt]; omega
      have hne : ∀ q b, 0 < (kids q).cnt b → b ≠ a := fun q b hb e => by subst e; have := cnt_le kids q b; omega
      have hnp : ∀ q b, 0 < (kids q).cnt b → b ≠ p := fun q b hb e => by
        subst e; have := cnt_le kids q b; rw [hcnt] at hp; omega
      have hdk : ∀ q b, (kids q).cnt b ≤ 1 := fun q b => by have h1 := cnt_le kids q b; have h2 := hd b; rw [hcnt] at h2; omega
      have hdj : ∀ q r b, q ≠ r → 0 < (kids q).cnt b → ¬ 0 < (kids r).cnt b := fun q r b hqr h1 h2 => by
        have h3 := cnt_le2 kids hqr b; have h4 := hd b; rw [hcnt] at h4; omega
      -- first child
      rw [kidOf_eq hc1]
      simp only [obind_ok]
      rw [k1 s1, hkid s1]
      have ih1 := ih s1 f a s1 c1 l m1 (hold H (some a)) r1 hcl1 (hsh1.2 s1).1 (hsh1.2 s1).2 (hdk s1) (fun b hb => hI b (hsk s1 b hb))
        (by have := cnt_le kids s1 a; omega) hIa hc1 ((k1 s1).trans (hkid s1)) (fun r b hr hb hb' => by
          rw [k1 r, hkid r] at hb'
          exact hdj r s1 b hr (root_pos hb') (root_pos hb))
        (.held (by rw [hold_self]; omega)) (by have := depth_kid a x y d ok kids s1; omega)
      cases hp1 : adjustQuad xr yr dir (kids s1).tree with
      | ub => trivial
      | err e =>
        rw [hp1] at ih1
        have ih1 : adjustH xr yr dir f (kids s1).root l m1 = .err e := ih1
        simp only [ih1, obind_err]
        rfl
      | ok rr1 =>
        rw [hp1] at ih1
        obtain ⟨st1, es1, t1, us1, as1, A1⟩ := ih1
        obtain ⟨l2, m2⟩ := st1
        have eL := A1.list
        dsimp only at eL
        subst eL
        simp only [es1, obind_ok]
        have hcl2 : Clean I m2 := hcl1.frame A1.fr (fun b hb => by
          rcases hb with e | hb
          · subst e; exact hIa
          · exact hI b (hsk s1 b hb))
        obtain ⟨c2, hc2⟩ : ∃ c, m2.cell a = some c := A1.rc.held (by have h1 := holds_le (hold H (some a)) as1 a; rw [hold_self] at h1; omega)
        have kd2 := A1.kid c2 hc2
        have hs2 : c2.kid s2 = (kids s2).root := by rw [kd2 s2, if_neg (Ne.symm hs), k1 s2, hkid s2]
        rw [kidOf_eq hc2]
        simp only [obind_ok]
        rw [hs2]
        have al2 : ∀ q, q ≠ s1 → ∀ b, (kids q).root = some b → ∃ c, m2.cell b = some c := fun q hqq b hb =>
          A1.rc.kid hc2 (q := q) (by rw [kd2 q, if_neg hqq, k1 q, hkid q]; exact hb)
        have shk2 : ∀ q, q ≠ s1 → Sh I m2 (kids q) ∧ Lk I m2 (some a) (kids q) := fun q hqq =>
          ⟨(hsh1.2 q).1.frame A1.fr A1.rc (fun b hb h => h.elim (hne q b hb) (hdj q s1 b hqq hb)) (fun b hb => hdj q s1 b hqq hb) (al2 q hqq),
           (hsh1.2 q).2.frame A1.fr (fun b hb => hdj q s1 b hqq (root_pos hb)) (al2 q hqq)⟩
        have ih2 := ih s2 f a s2 c2 (l ++ as1) m2 (holds (hold H (some a)) as1) A1.rc hcl2 (shk2 s2 (Ne.symm hs)).1 (shk2 s2 (Ne.symm hs)).2 (hdk s2)
          (fun b hb => hI b (hsk s2 b hb))
          (by have := cnt_le kids s2 a; omega) hIa hc2 hs2 (fun r b hr hb hb' => by
            rw [kd2 r] at hb'
            split at hb'
            · have h1 := root_pos hb'
              have h2 := A1.cnt b
              exact hdj s1 s2 b hs (by omega) (root_pos hb)
            · rw [k1 r, hkid r] at hb'
              exact hdj r s2 b hr (root_pos hb') (root_pos hb))
          (.held (by have h1 := holds_le (hold H (some a)) as1 a; rw [hold_self] at h1; omega)) (by have := depth_kid a x y d ok kids s2; omega)
        cases hp2 : adjustQuad xr yr dir (kids s2).tree with
        | ub => trivial
        | err e =>
          rw [hp2] at ih2
          have ih2 : adjustH xr yr dir f (kids s2).root (l ++ as1) m2 = .err e := ih2
          simp only [ih2, obind_err]
          rfl
        | ok rr2 =>
          rw [hp2] at ih2
          obtain ⟨st2, es2, t2, us2, as2, A2⟩ := ih2
          obtain ⟨l3, m3⟩ := st2
          have eL := A2.list
          dsimp only at eL
          subst eL
          have r3' : RC m3 (hold (holds (holds H as1) as2) (some a)) := by
            have := A2.rc
            rw [hold_holds, hold_holds]; exact this
          obtain ⟨m4, e4, r4, f4⟩ := release_ok (some a) r3'
          simp only [es2, obind_ok, e4]
          obtain ⟨c3, hc3⟩ : ∃ c, m3.cell a = some c := r3'.held (by rw [hold_self]; omega)
          have kd3 := A2.kid c3 hc3
          -- frame of the whole
          have fr13 : Fr m1 m3 (fun b => b = a ∨ 0 < cntK kids b) (fun b => 0 < cntK kids b) :=
            (A1.fr.mono (fun b h => h.imp id fun h => by have := cnt_le kids s1 b; omega) (fun b h => by have := cnt_le kids s1 b; omega)).trans
              (A2.fr.mono (fun b h => h.imp id fun h => by have := cnt_le kids s2 b; omega) (fun b h => by have := cnt_le kids s2 b; omega))
          have fr04 : Fr m m4 (fun b => 0 < (node a x y d ok kids).cnt b) (fun b => 0 < cntK kids b) :=
            ((f1.widen _ _).trans (fr13.mono (fun b h => by
              rcases h with e | h
              · subst e; exact root_pos rfl
              · rw [hcnt]; omega) (fun b h => h))).trans (f4.widen _ _)
          -- the node itself is still there
          have anch0 := hanch.step (K' := fun b => 0 < (node a x y d ok kids).cnt b) (P := fun b => 0 < cntK kids b) (H' := holds (holds H as1) as2)
            fr04 r4 (fun b => Nat.le_trans (holds_le H as1 b) (holds_le _ as2 b)) (fun b h => .inr h)
          obtain ⟨_, cp4, hcp4⟩ := anch0
          obtain ⟨cpz, h0, _, _, _, kz, _⟩ := fr04.cell p cp4 hcp4
          rw [hcp] at h0; cases h0
          have kz := kz (by omega)
          obtain ⟨c4, hc4⟩ : ∃ c, m4.cell a = some c := r4.kid hcp4 (q := qq) (by rw [kz qq]; exact hq)
          -- shape before the release
          have shk3 : ∀ q, Sh I m3 (updQ (updQ kids s1 t1) s2 t2 q) ∧ Lk I m3 (some a) (updQ (updQ kids s1 t1) s2 t2 q) := by
            intro q
            by_cases eq2 : q = s2
            · subst eq2; rw [updQ_same]; exact ⟨A2.sh, A2.lk⟩
            · rw [updQ_ne _ _ eq2]
              have al3 : ∀ b, (updQ kids s1 t1 q).root = some b → ∃ c, m3.cell b = some c := fun b hb => by
                refine r3'.kid hc3 (q := q) ?_
                rw [kd3 q, if_neg eq2, kd2 q]
                by_cases eq1 : q = s1
                · subst eq1; rw [updQ_same] at hb; rw [if_pos rfl]; exact hb
                · rw [updQ_ne _ _ eq1] at hb; rw [if_neg eq1, k1 q, hkid q]; exact hb
              by_cases eq1 : q = s1
              · subst eq1
                rw [updQ_same] at al3 ⊢
                have sub1 : ∀ b, 0 < t1.cnt b → 0 < (kids q).cnt b := fun b hb => by have := A1.cnt b; omega
                exact ⟨A1.sh.frame A2.fr r3' (fun b hb h => h.elim (hne q b (sub1 b hb)) (hdj q s2 b hs (sub1 b hb))) (fun b hb => hdj q s2 b hs (sub1 b hb)) al3,
                  A1.lk.frame A2.fr (fun b hb => hdj q s2 b hs (sub1 b (root_pos hb))) al3⟩
              · rw [updQ_ne _ _ eq1] at al3 ⊢
                exact ⟨(shk2 q eq1).1.frame A2.fr r3' (fun b hb h => h.elim (hne q b hb) (hdj q s2 b eq2 hb)) (fun b hb => hdj q s2 b eq2 hb) al3,
                  (shk2 q eq1).2.frame A2.fr (fun b hb => hdj q s2 b eq2 (root_pos hb)) al3⟩
          have fr13a := fr13.cell a c3 hc3
          obtain ⟨ca, hca, xa, ya, da, _, pa⟩ := fr13a
          rw [hc1] at hca; cases hca
          have sh3 : Sh I m3 (node a x y d ok (updQ (updQ kids s1 t1) s2 t2)) := by
            refine ⟨⟨c3, hc3, xa.trans (x0.trans hx), ya.trans (y0.trans hy), da.trans (d0.trans hdd), fun q => ?_⟩, shk3⟩
            rw [kd3 q]
            by_cases eq2 : q = s2
            · subst eq2; rw [if_pos rfl, updQ_same]
            · rw [if_neg eq2, updQ_ne _ _ eq2, kd2 q]
              by_cases eq1 : q = s1
              · subst eq1; rw [if_pos rfl, updQ_same]
              · rw [if_neg eq1, updQ_ne _ _ eq1, k1 q, hkid q]
          have ecnt : ∀ b, cntK (updQ (updQ kids s1 t1) s2 t2) b + cntAll us1 b + cntAll us2 b = cntK kids b := fun b => by
            have h1 := cntK_upd (updQ kids s1 t1) s2 t2 b
            have h2 := cntK_upd kids s1 t1 b
            have h3 := A1.cnt b
            have h4 := A2.cnt b
            rw [updQ_ne _ _ (Ne.symm hs)] at h1
            omega
          refine ⟨_, rfl, node a x y d ok (updQ (updQ kids s1 t1) s2 t2), us1 ++ us2, as1 ++ as2, ?_⟩
          refine ⟨(List.append_assoc ..), ?_, ?_, ?_, ?_, ?_, ?_, ?_, ?_, ?_, ?_⟩
          · rw [List.map_append, List.map_append, A1.ads, A2.ads]
          · dsimp only [tree]
            rw [A1.tree1, A2.tree1, updQ_map, updQ_map]
          · dsimp only
            rw [A1.trees, A2.trees, List.map_append]
          · dsimp only
            rw [holds_append]; exact r4
          · exact fr04.mono (fun b h => .inr h) (fun b h => by rw [hcnt]; omega)
          · exact sh3.frame f4 r4 (fun _ _ => id) (fun _ _ => id) (fun b hb => by cases hb; exact ⟨c4, hc4⟩)
          · exact hlk.frame fr04 (fun b hb => by cases hb; show ¬ 0 < cntK kids a; omega) (fun b hb => by cases hb; exact ⟨c4, hc4⟩)
          · intro u hu'
            dsimp only
            have hal : ∀ {mm : Mem V}, RC mm (holds (holds H as1) as2) → ∀ b, u.root = some b → ∃ c, mm.cell b = some c := by
              intro mm hmm b hb
              refine hmm.held ?_
              rw [← holds_append]
              have : b ∈ as1 ++ as2 := by
                refine root_mem (us := us1 ++ us2) ?_ hu' hb
                rw [List.map_append, List.map_append, A1.ads, A2.ads]
              have := List.count_pos_iff.2 this
              simp only [holds]; omega
            have hal3 : ∀ b, u.root = some b → ∃ c, m3.cell b = some c := by
              intro b hb
              obtain ⟨cc, hcc⟩ := hal r4 b hb
              obtain ⟨c0, h0, _⟩ := f4.cell b cc hcc
              exact ⟨c0, h0⟩
            have sh3u : Sh I m3 u := by
              rcases List.mem_append.1 hu' with h | h
              · have sub1 : ∀ b, 0 < u.cnt b → 0 < (kids s1).cnt b := fun b hb => by
                  have h1 := A1.cnt b; have h2 := cnt_le_cntAll h b; omega
                exact (A1.shs u h).frame A2.fr r3' (fun b hb h => h.elim (hne s1 b (sub1 b hb)) (hdj s1 s2 b hs (sub1 b hb)))
                  (fun b hb => hdj s1 s2 b hs (sub1 b hb)) hal3
              · exact A2.shs u h
            exact sh3u.frame f4 r4 (fun _ _ => id) (fun _ _ => id) (hal r4)
          · intro b
            have h1 := ecnt b
            rw [cntAll_append, hcnt, cnt_node]
            omega
          · intro cp' hcp' r
            dsimp only at hcp'
            rw [hcp4] at hcp'; cases hcp'
            rw [kz r]
            split
            · next e => rw [e, hq]; rfl
            · rfl

end Mdds.Quad
