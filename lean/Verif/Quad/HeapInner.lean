import Verif.Quad.HeapFind
/-!
`remove` of a node with children in the heap: the stages.
-/
namespace Mdds.Quad

open AT

variable {V : Type}

theorem obind_assoc {α β γ : Type} (o : Outcome α) (f : α → Outcome β) (g : β → Outcome γ) : (o.bind f).bind g = o.bind fun a => (f a).bind g := by
  cases o <;> rfl

/-- Cutting the three quadrants next to the replacement. -/
def cutH (del : Nat) (q : Quadrant) (xr yr : Int × Int) (m : Mem V) : Outcome (List Nat × Mem V) :=
  (m.get del).bind fun c1 => (adjustH xr yr (adjacent q).1.2 (m.next + 1) (c1.kid (adjacent q).1.1) [] m).bind fun s =>
  (s.2.get del).bind fun c2 => (adjustH xr yr (adjacent q).2.2 (m.next + 1) (c2.kid (adjacent q).2.1) s.1 s.2).bind fun s =>
  (s.2.get del).bind fun c3 => newRootH xr yr (opposite q) (m.next + 1) (c3.kid q) s.1 s.2

/-- Moving the two side subtrees of the replacement. -/
def moveH (del r : Nat) (q : Quadrant) (m : Mem V) : Outcome (Mem V) :=
  (m.get r).bind fun r1 => (addRef (r1.kid (sides q).1) m).bind fun m => (assignKid r (sides q).1 none m).bind fun m =>
  (reinsertAtH del (sides q).1 (r1.kid (sides q).1) m).bind fun m =>
  (m.get r).bind fun r2 => (addRef (r2.kid (sides q).2) m).bind fun m => (release (r1.kid (sides q).1) m).bind fun m =>
  (assignKid r (sides q).2 none m).bind fun m => (reinsertAtH del (sides q).2 (r2.kid (sides q).2) m).bind fun m =>
  release (r2.kid (sides q).2) m

/-- The rest. -/
def finishH (del r : Nat) (q : Quadrant) (l : List Nat) (m : Mem V) : Outcome (Mem V) :=
  (m.get r).bind fun r3 => (m.upd del fun c => { c with x := r3.x, y := r3.y, d := r3.d }).bind fun m =>
  (assignPar del r3.par m).bind fun m => (assignPar r none m).bind fun m =>
  (m.get r).bind fun r4 => (assignKid del q (r4.kid q) m).bind fun m => (assignKid r q none m).bind fun m =>
  (reinsertListH del l m).bind fun m => (releaseAll l m).bind fun m => release (some r) m

theorem removeInnerH_eq (del : Nat) (m : Mem V) : removeInnerH del m =
    (m.get del).bind fun c => (replacementH c.x c.y del m).bind fun o => match o with
    | none => .err .general
    | some r => (addRef (some r) m).bind fun m => (m.get r).bind fun rc =>
      (cutH del (getQuadrant c.x c.y rc.x rc.y) (ordered c.x rc.x) (ordered c.y rc.y) m).bind fun s =>
      (moveH del r (getQuadrant c.x c.y rc.x rc.y) s.2).bind fun m => finishH del r (getQuadrant c.x c.y rc.x rc.y) s.1 m := by
  unfold removeInnerH
  refine congrArg _ (funext fun c => congrArg _ (funext fun o => ?_))
  cases o with
  | none => rfl
  | some r => simp only [cutH, moveH, finishH, obind_assoc]

/-- Cutting, in the model. -/
def cutP (xr yr : Int × Int) (q : Quadrant) (k : Quadrant → Tree V) : Outcome ((Tree V × List (Tree V)) × (Tree V × List (Tree V)) × (Tree V × List (Tree V))) :=
  (adjustQuad xr yr (adjacent q).1.2 (k (adjacent q).1.1)).bind fun s1 => (adjustQuad xr yr (adjacent q).2.2 (k (adjacent q).2.1)).bind fun s2 =>
  (setNewRoot xr yr (opposite q) (k q)).bind fun s3 => .ok (s1, s2, s3)

/-- Moving, in the model. -/
def moveP (D : Tree V) (q : Quadrant) (u1 u2 : Tree V) : Outcome (Tree V) :=
  (reinsertTreeAt D (sides q).1 u1).bind fun d2 => reinsertTreeAt d2 (sides q).2 u2

theorem removeInner_mk {x y : Int} {d : V} {ok : Bool} {k : Quadrant → Tree V} {q : Quadrant} {rx ry : Int} {rd : V} {rok : Bool} {rk : Quadrant → Tree V}
    (h1 : findReplacement x y (mk x y d ok k) = some q) (h2 : chainEnd (opposite q) (k q) = mk rx ry rd rok rk) (h3 : getQuadrant x y rx ry = q) :
    removeInner (mk x y d ok k) = (cutP (ordered x rx) (ordered y ry) q k).bind fun s =>
      (moveP (mk x y d ok (updQ (updQ k (adjacent q).1.1 s.1.1) (adjacent q).2.1 s.2.1.1)) q ((chainEnd (opposite q) s.2.2.1).child (sides q).1)
        ((chainEnd (opposite q) s.2.2.1).child (sides q).2)).bind fun D =>
      reinsertList ((D.overwrite ⟨rx, ry, rd⟩).setChild q (((chainEnd (opposite q) s.2.2.1).child q).setOk false)) (s.1.2 ++ s.2.1.2 ++ s.2.2.2) := by
  have hch : (mk x y d ok k).child q = k q := by cases q <;> rfl
  unfold mk at h1 hch ⊢
  unfold removeInner
  dsimp only
  rw [h1]
  dsimp only
  rw [hch, h2]
  unfold mk
  dsimp only
  rw [if_neg (not_not.2 h3)]
  simp only [cutP, moveP, obind_assoc, obind_ok]
  cases q <;> rfl

/-- What cutting leaves. -/
structure CutD (I : Nat → Prop) (m : Mem V) (H : Nat → Nat) (del : Nat) (x y : Int) (d : V) (ok : Bool) (kids : Quadrant → AT V) (q : Quadrant)
    (s : List Nat × Mem V) (p : (Tree V × List (Tree V)) × (Tree V × List (Tree V)) × (Tree V × List (Tree V)))
    (kd : Quadrant → AT V) (us : List (AT V)) : Prop where
  ads : us.map root = s.1.map some
  t1 : p.1.1 = (kd (adjacent q).1.1).tree
  t2 : p.2.1.1 = (kd (adjacent q).2.1).tree
  t3 : p.2.2.1 = (kd q).tree
  opp : kd (opposite q) = kids (opposite q)
  trees : p.1.2 ++ p.2.1.2 ++ p.2.2.2 = us.map tree
  rc : RC s.2 (holds H s.1)
  fr : Fr m s.2 (fun b => 0 < (node del x y d ok kids).cnt b) (fun b => 0 < cntK kids b)
  sh : Sh I s.2 (node del x y d ok kd)
  shs : ∀ u ∈ us, Sh I s.2 u
  cnt : ∀ b, (node del x y d ok kd).cnt b + cntAll us b = (node del x y d ok kids).cnt b
  last : ((kd q).last (opposite q)).root = ((kids q).last (opposite q)).root

theorem adjacent_ne (q : Quadrant) : (adjacent q).1.1 ≠ (adjacent q).2.1 ∧ (adjacent q).1.1 ≠ q ∧ (adjacent q).2.1 ≠ q := by cases q <;> decide
theorem opposite_ne (q : Quadrant) : opposite q ≠ q ∧ opposite q ≠ (adjacent q).1.1 ∧ opposite q ≠ (adjacent q).2.1 := by cases q <;> decide

set_option maxHeartbeats 1000000 in
theorem cut_spec {I : Nat → Prop} {m : Mem V} {H : Nat → Nat} {a : Nat} {x y : Int} {d : V} {ok : Bool} {kids : Quadrant → AT V} (q : Quadrant) (xr yr : Int × Int)
    (hrc : RC m H) (hcl : Clean I m) (hsh : Sh I m (node a x y d ok kids)) (hd : ∀ b, (node a x y d ok kids).cnt b ≤ 1)
    (hI : ∀ b, 0 < (node a x y d ok kids).cnt b → I b) (hH : 0 < H a) :
    Ref (cutH a q xr yr m) (cutP xr yr q fun q => (kids q).tree) fun s p => ∃ kd us, CutD I m H a x y d ok kids q s p kd us := by
  have hcnt : ∀ b, (node a x y d ok kids).cnt b = (if b = a then 1 else 0) + cntK kids b := fun b => rfl
  have hak : cntK kids a = 0 := by have := hd a; rw [hcnt, if_pos rfl] at this; omega
  have hIa : I a := hI a (root_pos rfl)
  have hanch : Anch m H (fun b => 0 < (node a x y d ok kids).cnt b) a := .held hH
  obtain ⟨c, hc⟩ := hanch.live hrc
  have hkid : ∀ q, c.kid q = (kids q).root := fun q => by
    obtain ⟨c0, h0, _, _, _, hk⟩ := hsh.1
    rw [hc] at h0; cases h0; exact hk q
  have hsk : ∀ q b, 0 < (kids q).cnt b → 0 < (node a x y d ok kids).cnt b := fun q b hb => by
    have := cnt_le kids q b
    rw [hcnt]; omega
  have hne : ∀ q b, 0 < (kids q).cnt b → b ≠ a := fun q b hb e => by subst e; have := cnt_le kids q b; omega
  have hdk : ∀ q b, (kids q).cnt b ≤ 1 := fun q b => by have h1 := cnt_le kids q b; have h2 := hd b; rw [hcnt] at h2; omega
  have hdj : ∀ q r b, q ≠ r → 0 < (kids q).cnt b → ¬ 0 < (kids r).cnt b := fun q r b hqr h1 h2 => by
    have h3 := cnt_le2 kids hqr b; have h4 := hd b; rw [hcnt] at h4; omega
  obtain ⟨hs12, hs1, hs2⟩ := adjacent_ne q
  obtain ⟨ho, ho1, ho2⟩ := opposite_ne q
  suffices Ref (cutH a q xr yr m) (cutP xr yr q fun q => (kids q).tree) fun s p => ∃ t1 t2 t3 us,
      CutD I m H a x y d ok kids q s p (updQ (updQ (updQ kids (adjacent q).1.1 t1) (adjacent q).2.1 t2) q t3) us by
    refine this.mono ?_
    rintro s p ⟨t1, t2, t3, us, h⟩
    exact ⟨_, us, h⟩
  suffices Ref (cutH a q xr yr m) (cutP xr yr q fun q => (kids q).tree) fun s p => ∃ t1 t2 t3 us,
      (us.map root = s.1.map some ∧ p.1.1 = t1.tree ∧ p.2.1.1 = t2.tree ∧ p.2.2.1 = t3.tree ∧ p.1.2 ++ p.2.1.2 ++ p.2.2.2 = us.map tree ∧ (t3.last (opposite q)).root = ((kids q).last (opposite q)).root) ∧
      RC s.2 (holds H s.1) ∧ Fr m s.2 (fun b => 0 < (node a x y d ok kids).cnt b) (fun b => 0 < cntK kids b) ∧
      Sh I s.2 (node a x y d ok (updQ (updQ (updQ kids (adjacent q).1.1 t1) (adjacent q).2.1 t2) q t3)) ∧ (∀ u ∈ us, Sh I s.2 u) ∧
      ∀ b, (node a x y d ok (updQ (updQ (updQ kids (adjacent q).1.1 t1) (adjacent q).2.1 t2) q t3)).cnt b + cntAll us b = (node a x y d ok kids).cnt b by
    refine this.mono ?_
    rintro s p ⟨t1, t2, t3, us, ⟨h1, h2, h3, h4, h5, h6⟩, h7, h8, h9, h10, h11⟩
    refine ⟨t1, t2, t3, us, h1, ?_, ?_, ?_, ?_, h5, h7, h8, h9, h10, h11, ?_⟩
    · rw [h2, updQ_ne _ _ hs1, updQ_ne _ _ hs12, updQ_same]
    · rw [h3, updQ_ne _ _ hs2, updQ_same]
    · rw [h4, updQ_same]
    · rw [updQ_ne _ _ ho, updQ_ne _ _ ho2, updQ_ne _ _ ho1]
    · rw [updQ_same, h6]
  simp only [cutH, cutP]
  generalize hl0 : ([] : List Nat) = l0
  generalize opposite q = dir
  revert hs12 hs1 hs2
  generalize (adjacent q).1.1 = s1
  generalize (adjacent q).1.2 = d1
  generalize (adjacent q).2.1 = s2
  generalize (adjacent q).2.2 = d2
  intro hs12 hs1 hs2
  simp only [get_eq hc, obind_ok]
  rw [hkid s1]
  have A1 := adjust_spec xr yr d1 I (kids s1) (m.next + 1) a s1 c l0 m H hrc hcl (hsh.2 s1).1 (hsh.2 s1).2 (hdk s1) (fun b hb => hI b (hsk s1 b hb))
    (by have := cnt_le kids s1 a; omega) hIa hc (hkid s1) (fun r b hr hb hb' => by
      rw [hkid r] at hb'
      exact hdj r s1 b hr (root_pos hb') (root_pos hb))
    (hanch.anti fun b h => by
      rcases h with e | h
      · subst e; exact root_pos rfl
      · exact hsk s1 b h)
    ((hsh.2 s1).1.depth_le hrc (hdk s1))
  refine Ref.bind A1 ?_
  rintro ⟨l1, m1⟩ ⟨pt1, pl1⟩ ⟨t1, us1, as1, A1⟩
  have eL := A1.list; have eT := A1.tree1; have eU := A1.trees
  dsimp only at eL eT eU
  subst eL eT eU
  have rc1 := A1.rc
  dsimp only at rc1
  have hcl1 : Clean I m1 := hcl.frame A1.fr (fun b hb => by
    rcases hb with e | hb
    · subst e; exact hIa
    · exact hI b (hsk s1 b hb))
  obtain ⟨an1, c1, hc1⟩ := hanch.step A1.fr rc1 (fun b => holds_le H as1 b) (fun b h => by
    rcases h with e | h
    · subst e; exact root_pos rfl
    · exact hsk s1 b h)
  have kd1 := A1.kid c1 hc1
  have sh1 : Sh I m1 (node a x y d ok (updQ kids s1 t1)) := hsh.replace hd A1.fr rc1 hc hc1 kd1 A1.sh A1.lk
  have cn1 : ∀ b, (node a x y d ok (updQ kids s1 t1)).cnt b + cntAll us1 b = (node a x y d ok kids).cnt b := fun b => by
    have h1 := cntK_upd kids s1 t1 b
    have h2 := A1.cnt b
    rw [cnt_node, cnt_node]; omega
  have e2 : updQ kids s1 t1 s2 = kids s2 := updQ_ne _ _ (Ne.symm hs12)
  have k2 : c1.kid s2 = (kids s2).root := by rw [kd1 s2, if_neg (Ne.symm hs12), hkid s2]
  simp only [get_eq hc1, obind_ok, k2]
  have shs2 := sh1.2 s2
  rw [e2] at shs2
  have hdk1 : ∀ b, (node a x y d ok (updQ kids s1 t1)).cnt b ≤ 1 := fun b => by have h1 := cn1 b; have h2 := hd b; omega
  have hnx1 : m1.next = m.next := A1.fr.next
  have A2 := adjust_spec xr yr d2 I (kids s2) (m.next + 1) a s2 c1 (l0 ++ as1) m1 (holds H as1) rc1 hcl1 shs2.1 shs2.2 (hdk s2) (fun b hb => hI b (hsk s2 b hb))
    (by have := cnt_le kids s2 a; omega) hIa hc1 k2 (fun r b hr hb hb' => by
      rw [kd1 r] at hb'
      split at hb'
      · have h1 := root_pos hb'
        have h2 := A1.cnt b
        exact hdj s1 s2 b hs12 (by omega) (root_pos hb)
      · rw [hkid r] at hb'
        exact hdj r s2 b hr (root_pos hb') (root_pos hb))
    (an1.anti fun b h => by
      rcases h with e | h
      · subst e; exact root_pos rfl
      · exact hsk s2 b h)
    (by rw [← hnx1]; exact shs2.1.depth_le rc1 (hdk s2))
  refine Ref.bind A2 ?_
  rintro ⟨l2, m2⟩ ⟨pt2, pl2⟩ ⟨t2, us2, as2, A2⟩
  have eL := A2.list; have eT := A2.tree1; have eU := A2.trees
  dsimp only at eL eT eU
  subst eL eT eU
  have rc2 := A2.rc
  dsimp only at rc2
  have hcl2 : Clean I m2 := hcl1.frame A2.fr (fun b hb => by
    rcases hb with e | hb
    · subst e; exact hIa
    · exact hI b (hsk s2 b hb))
  obtain ⟨an2, c2, hc2⟩ := an1.step A2.fr rc2 (fun b => holds_le _ as2 b) (fun b h => by
    rcases h with e | h
    · subst e; exact root_pos rfl
    · exact hsk s2 b h)
  have kd2 := A2.kid c2 hc2
  have fr2 := A2.fr
  rw [← e2] at fr2
  have sh2 : Sh I m2 (node a x y d ok (updQ (updQ kids s1 t1) s2 t2)) := sh1.replace hdk1 fr2 rc2 hc1 hc2 kd2 A2.sh A2.lk
  have cn2 : ∀ b, (node a x y d ok (updQ (updQ kids s1 t1) s2 t2)).cnt b + cntAll us1 b + cntAll us2 b = (node a x y d ok kids).cnt b := fun b => by
    have h1 := cntK_upd (updQ kids s1 t1) s2 t2 b
    have h2 := A2.cnt b
    have h3 := cn1 b
    rw [e2] at h1
    rw [cnt_node] at h3 ⊢; omega
  have hdk2 : ∀ b, (node a x y d ok (updQ (updQ kids s1 t1) s2 t2)).cnt b ≤ 1 := fun b => by have h1 := cn2 b; have h2 := hd b; omega
  have e3 : updQ (updQ kids s1 t1) s2 t2 q = kids q := by rw [updQ_ne _ _ (Ne.symm hs2), updQ_ne _ _ (Ne.symm hs1)]
  have k3 : c2.kid q = (kids q).root := by rw [kd2 q, if_neg (Ne.symm hs2), kd1 q, if_neg (Ne.symm hs1), hkid q]
  simp only [get_eq hc2, obind_ok, k3]
  have shs3 := sh2.2 q
  rw [e3] at shs3
  have hnx2 : m2.next = m.next := A2.fr.next.trans hnx1
  have N := newRoot_spec xr yr dir I (kids q) (m.next + 1) a (l0 ++ as1 ++ as2) m2 (holds (holds H as1) as2) rc2 hcl2 shs3.1 shs3.2 (hdk q) (fun b hb => hI b (hsk q b hb))
    (fun k hk => .kid q (an2.anti fun b h => hsk q b h) (by have := cnt_le kids q a; omega) hc2 (k3.trans hk))
    (by rw [← hnx2]; exact shs3.1.depth_le rc2 (hdk q))
  rw [show newRootH xr yr dir (m.next + 1) (kids q).root (l0 ++ as1 ++ as2) m2 = (newRootH xr yr dir (m.next + 1) (kids q).root (l0 ++ as1 ++ as2) m2).bind .ok by
    cases newRootH xr yr dir (m.next + 1) (kids q).root (l0 ++ as1 ++ as2) m2 <;> rfl]
  refine Ref.bind N ?_
  rintro ⟨l3, m3⟩ ⟨pt3, pl3⟩ ⟨t3, us3, as3, N⟩
  have eL := N.list; have eT := N.tree1; have eU := N.trees
  dsimp only at eL eT eU
  subst eL eT eU
  have rc3 := N.rc
  dsimp only at rc3
  obtain ⟨an3, c3, hc3⟩ := an2.step N.fr rc3 (fun b => holds_le _ as3 b) (fun b h => hsk q b h)
  obtain ⟨cz, hz, xz, yz, dz, kz, pz⟩ := N.fr.cell a c3 hc3
  rw [hc2] at hz; cases hz
  have kz := kz (fun h => hne q a h rfl)
  have fr3 : Fr m2 m3 (fun b => b = a ∨ 0 < (updQ (updQ kids s1 t1) s2 t2 q).cnt b) (fun b => 0 < (updQ (updQ kids s1 t1) s2 t2 q).cnt b) := by
    rw [e3]; exact N.fr.mono (fun b h => .inr h) (fun b h => h)
  have sh3 : Sh I m3 (node a x y d ok (updQ (updQ (updQ kids s1 t1) s2 t2) q t3)) := sh2.replace hdk2 fr3 rc3 hc2 hc3 (fun r => by
    rw [kz r]
    split
    · next e => rw [e, k3, N.root]
    · rfl) N.sh N.lk
  have frA : Fr m m3 (fun b => 0 < (node a x y d ok kids).cnt b) (fun b => 0 < cntK kids b) := by
    refine ((A1.fr.mono (fun b h => ?_) (fun b h => ?_)).trans (A2.fr.mono (fun b h => ?_) (fun b h => ?_))).trans (N.fr.mono (fun b h => ?_) (fun b h => ?_))
    · rcases h with e | h
      · subst e; exact root_pos rfl
      · exact hsk s1 b h
    · have := cnt_le kids s1 b; omega
    · rcases h with e | h
      · subst e; exact root_pos rfl
      · exact hsk s2 b h
    · have := cnt_le kids s2 b; omega
    · exact hsk q b h
    · have := cnt_le kids q b; omega
  subst hl0
  refine ⟨_, rfl, t1, t2, t3, us1 ++ us2 ++ us3, ⟨?_, rfl, rfl, rfl, ?_, N.last⟩, ?_, frA, sh3, ?_, ?_⟩
  · simp only [List.map_append, List.nil_append, A1.ads, A2.ads, N.ads]
  · simp only [List.map_append]
  · simp only [List.nil_append]
    rw [holds_append, holds_append]; exact rc3
  · intro u hu
    dsimp only
    have al : ∀ b, u.root = some b → b ∈ as1 ++ as2 ++ as3 := fun b hb => by
      refine root_mem (us := us1 ++ us2 ++ us3) ?_ hu hb
      simp only [List.map_append, A1.ads, A2.ads, N.ads]
    have al3 : ∀ b, u.root = some b → ∃ c, m3.cell b = some c := fun b hb => by
      refine rc3.held ?_
      have := List.count_pos_iff.2 (al b hb)
      simp only [List.count_append] at this
      simp only [holds]; omega
    have al2 : ∀ b, u.root = some b → ∃ c, m2.cell b = some c := fun b hb => by
      obtain ⟨cc, hcc⟩ := al3 b hb
      obtain ⟨c0, h0, _⟩ := N.fr.cell b cc hcc
      exact ⟨c0, h0⟩
    rcases List.mem_append.1 hu with h | h
    · rcases List.mem_append.1 h with h | h
      · have sub : ∀ b, 0 < u.cnt b → 0 < (kids s1).cnt b := fun b hb => by
          have h1 := A1.cnt b; have h2 := cnt_le_cntAll h b; omega
        refine ((A1.shs u h).frame A2.fr rc2 (fun b hb h => h.elim (hne s1 b (sub b hb)) (hdj s1 s2 b hs12 (sub b hb)))
          (fun b hb => hdj s1 s2 b hs12 (sub b hb)) al2).frame N.fr rc3 ?_ ?_ al3
        · exact fun b hb => hdj s1 q b hs1 (sub b hb)
        · exact fun b hb => hdj s1 q b hs1 (sub b hb)
      · have sub : ∀ b, 0 < u.cnt b → 0 < (kids s2).cnt b := fun b hb => by
          have h1 := A2.cnt b; have h2 := cnt_le_cntAll h b; omega
        exact (A2.shs u h).frame N.fr rc3 (fun b hb => hdj s2 q b hs2 (sub b hb)) (fun b hb => hdj s2 q b hs2 (sub b hb)) al3
    · exact N.shs u h
  · intro b
    have h1 := cntK_upd (updQ (updQ kids s1 t1) s2 t2) q t3 b
    have h2 := cn2 b
    have h3 := N.cnt b
    rw [e3] at h1
    rw [cnt_node] at h2 ⊢
    simp only [cntAll_append]
    omega

end Mdds.Quad
