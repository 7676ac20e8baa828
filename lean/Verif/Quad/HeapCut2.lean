import Verif.Quad.HeapCut
/-!
`set_new_root` and the search for the replacement node in the heap.
-/
namespace Mdds.Quad

open AT

variable {V : Type}

/-- One child of a node is replaced. -/
theorem Sh.replace {I : Nat → Prop} {m m' : Mem V} {H : Nat → Nat} {a : Nat} {x y : Int} {d : V} {ok : Bool} {kids : Quadrant → AT V} {s : Quadrant} {t : AT V}
    {c c' : Cell V} (h : Sh I m (node a x y d ok kids)) (hd : ∀ b, (node a x y d ok kids).cnt b ≤ 1)
    (f : Fr m m' (fun b => b = a ∨ 0 < (kids s).cnt b) (fun b => 0 < (kids s).cnt b)) (hrc : RC m' H) (hc : m.cell a = some c)
    (hc' : m'.cell a = some c') (hkid : ∀ r, c'.kid r = if r = s then t.root else c.kid r) (hs : Sh I m' t) (hl : Lk I m' (some a) t) :
    Sh I m' (node a x y d ok (updQ kids s t)) := by
  obtain ⟨⟨c0, h0, hx, hy, hdd, hk0⟩, hk⟩ := h
  rw [hc] at h0; cases h0
  obtain ⟨c1, h1, x1, y1, d1, _, _⟩ := f.cell a c' hc'
  rw [hc] at h1; cases h1
  refine ⟨⟨c', hc', x1.trans hx, y1.trans hy, d1.trans hdd, fun q => ?_⟩, fun q => ?_⟩
  · rw [hkid q]
    by_cases e : q = s
    · subst e; rw [if_pos rfl, updQ_same]
    · rw [if_neg e, updQ_ne _ _ e, hk0 q]
  · by_cases e : q = s
    · subst e; rw [updQ_same]; exact ⟨hs, hl⟩
    · rw [updQ_ne _ _ e]
      have al : ∀ b, (kids q).root = some b → ∃ c, m'.cell b = some c := fun b hb => hrc.kid hc' (q := q) (by rw [hkid q, if_neg e, hk0 q]; exact hb)
      have n1 : ∀ b, 0 < (kids q).cnt b → ¬ 0 < (kids s).cnt b := fun b h1 h2 => by
        have h3 := cnt_le2 kids e b; have h4 := hd b; rw [cnt_node] at h4; omega
      have n2 : ∀ b, 0 < (kids q).cnt b → b ≠ a := fun b h1 h2 => by
        subst h2
        have h3 := cnt_le kids q b; have h4 := hd b; rw [cnt_node, if_pos rfl] at h4; omega
      exact ⟨(hk q).1.frame f hrc (fun b hb h => h.elim (n2 b hb) (n1 b hb)) n1 al, (hk q).2.frame f (fun b hb => n1 b (root_pos hb)) al⟩

theorem Sh.lt {I : Nat → Prop} {m : Mem V} {H : Nat → Nat} {t : AT V} (h : Sh I m t) (hrc : RC m H) {b : Nat} (hb : 0 < t.cnt b) : b < m.next := by
  obtain ⟨c, hc⟩ := h.cell hb
  exact lt_next hrc hc

theorem Sh.depth_le {I : Nat → Prop} {m : Mem V} {H : Nat → Nat} {t : AT V} (h : Sh I m t) (hrc : RC m H) (hd : ∀ b, t.cnt b ≤ 1) : t.depth ≤ m.next + 1 :=
  Nat.le_succ_of_le (AT.depth_le hd fun _ hb => h.lt hrc hb)

/-- The last node in one direction. -/
def AT.last (q : Quadrant) : AT V → AT V
  | nil => nil
  | node a x y d ok kids => match last q (kids q) with
    | nil => node a x y d ok kids
    | u => u

theorem last_nil {q : Quadrant} {t : AT V} : t.last q = nil ↔ t = nil := by
  cases t with
  | nil => simp [last]
  | node a x y d ok kids => simp only [last]; split <;> simp_all

theorem last_stop {q : Quadrant} {a : Nat} {x y : Int} {d : V} {ok : Bool} {kids : Quadrant → AT V} (h : kids q = nil) :
    (node a x y d ok kids).last q = node a x y d ok kids := by
  simp only [last, h]

theorem last_step {q : Quadrant} {a : Nat} {x y : Int} {d : V} {ok : Bool} {kids : Quadrant → AT V} (h : kids q ≠ nil) :
    (node a x y d ok kids).last q = (kids q).last q := by
  rw [last]
  split
  · next e => exact absurd (last_nil.1 e) h
  · rfl

theorem tree_nil {t : AT V} : t.tree = .nil ↔ t = nil := by
  cases t with
  | nil => simp [tree]
  | node => simp [tree, mk]

theorem chainEnd_mk_stop (q : Quadrant) (x y : Int) (d : V) (ok : Bool) (k : Quadrant → Tree V) (h : k q = .nil) : chainEnd q (mk x y d ok k) = mk x y d ok k := by
  cases q <;> simp [mk, chainEnd, h]

theorem chainEnd_mk_step (q : Quadrant) (x y : Int) (d : V) (ok : Bool) (k : Quadrant → Tree V) (h : k q ≠ .nil) : chainEnd q (mk x y d ok k) = chainEnd q (k q) := by
  cases q <;> simp only [mk, chainEnd]

theorem last_tree (q : Quadrant) (t : AT V) : (t.last q).tree = chainEnd q t.tree := by
  induction t with
  | nil => rfl
  | node a x y d ok kids ih =>
    by_cases h : kids q = nil
    · rw [last_stop h]
      show mk x y d ok _ = chainEnd q (mk x y d ok _)
      rw [chainEnd_mk_stop]
      rw [h]; rfl
    · rw [last_step h, ih q]
      show _ = chainEnd q (mk x y d ok _)
      rw [chainEnd_mk_step]
      rw [Ne, tree_nil]; exact h

theorem chain_spec {I : Nat → Prop} {m : Mem V} (q : Quadrant) {t : AT V} {f : Nat} (h : Sh I m t) (hf : t.depth ≤ f) {a : Nat} (ha : t.root = some a) :
    ∃ r, chainH q f a m = .ok r ∧ (t.last q).root = some r := by
  induction t generalizing f a with
  | nil => cases ha
  | node b x y d ok kids ih =>
    cases ha
    obtain ⟨f, rfl⟩ : ∃ g, f = g + 1 := ⟨f - 1, by simp only [depth] at hf; omega⟩
    obtain ⟨⟨c, hc, hx, hy, hdd, hkid⟩, hk⟩ := h
    simp only [chainH, get_eq hc, obind_ok, hkid q]
    cases hr : (kids q).root with
    | none => rw [last_stop (root_none hr)]; exact ⟨_, rfl, rfl⟩
    | some k =>
      rw [last_step (fun e => by rw [e] at hr; cases hr)]
      exact ih q (hk q).1 (by have := depth_kid b x y d ok kids q; omega) hr

theorem setNewRoot_mk (xr yr : Int × Int) (dir : Quadrant) (x y : Int) (d : V) (ok : Bool) (k : Quadrant → Tree V) :
    setNewRoot xr yr dir (mk x y d ok k) =
      (adjustQuad xr yr (rootSides dir).1.2 (k (rootSides dir).1.1)).bind fun r1 => (adjustQuad xr yr (rootSides dir).2.2 (k (rootSides dir).2.1)).bind fun r2 =>
      (setNewRoot xr yr dir (k dir)).bind fun r3 =>
        .ok (mk x y d ok (updQ (updQ (updQ k (rootSides dir).1.1 r1.1) (rootSides dir).2.1 r2.1) dir r3.1), r1.2 ++ r2.2 ++ r3.2) := by
  cases dir <;> rfl

theorem rootSides_ne (dir : Quadrant) : (rootSides dir).1.1 ≠ (rootSides dir).2.1 ∧ (rootSides dir).1.1 ≠ dir ∧ (rootSides dir).2.1 ≠ dir := by cases dir <;> decide

/-- What `set_new_root` leaves: `t'` in place of `t` below `p`, and the trees `us` cut off, held by the list. -/
structure NewR (I : Nat → Prop) (m : Mem V) (H : Nat → Nat) (p : Nat) (dir : Quadrant) (t : AT V) (l : List Nat)
    (s : List Nat × Mem V) (r : Tree V × List (Tree V)) (t' : AT V) (us : List (AT V)) (as : List Nat) : Prop where
  list : s.1 = l ++ as
  ads : us.map root = as.map some
  tree1 : r.1 = t'.tree
  trees : r.2 = us.map tree
  rc : RC s.2 (holds H as)
  fr : Fr m s.2 (fun b => 0 < t.cnt b) (fun b => 0 < t.cnt b)
  sh : Sh I s.2 t'
  lk : Lk I s.2 (some p) t'
  shs : ∀ u ∈ us, Sh I s.2 u
  cnt : ∀ b, t'.cnt b + cntAll us b = t.cnt b
  root : t'.root = t.root
  last : (t'.last dir).root = (t.last dir).root

set_option maxHeartbeats 1000000 in
theorem newRoot_spec (xr yr : Int × Int) (dir : Quadrant) (I : Nat → Prop) : ∀ (t : AT V) (f p : Nat) (l : List Nat)
    (m : Mem V) (H : Nat → Nat), RC m H → Clean I m → Sh I m t → Lk I m (some p) t → (∀ b, t.cnt b ≤ 1) → (∀ b, 0 < t.cnt b → I b) →
    (∀ a, t.root = some a → Anch m H (fun b => 0 < t.cnt b) a) → t.depth ≤ f →
    Ref (newRootH xr yr dir f t.root l m) (setNewRoot xr yr dir t.tree) fun s r => ∃ t' us as, NewR I m H p dir t l s r t' us as := by
  intro t
  induction t with
  | nil =>
    intro f p l m H hrc hcl hsh hlk hd hI hanch hf
    refine ⟨(l, m), by cases f <;> rfl, nil, [], [], ?_⟩
    exact ⟨by simp, rfl, rfl, rfl, by simpa using hrc, .refl .., trivial, trivial, fun u h => (nomatch h), fun b => rfl, rfl, rfl⟩
  | node a x y d ok kids ih =>
    intro f p l m H hrc hcl hsh hlk hd hI hanch hf
    obtain ⟨f, rfl⟩ : ∃ g, f = g + 1 := ⟨f - 1, by simp only [depth] at hf; omega⟩
    have hcnt : ∀ b, (node a x y d ok kids).cnt b = (if b = a then 1 else 0) + cntK kids b := fun b => rfl
    have hak : cntK kids a = 0 := by have := hd a; rw [hcnt, if_pos rfl] at this; omega
    have hIa : I a := hI a (root_pos rfl)
    have hanch := hanch a rfl
    obtain ⟨c, hc⟩ := hanch.live hrc
    have hkid : ∀ q, c.kid q = (kids q).root := fun q => by
      obtain ⟨c0, h0, _, _, _, hk⟩ := hsh.1
      rw [hc] at h0; cases h0; exact hk q
    have hsk : ∀ q b, 0 < (kids q).cnt b → 0 < (node a x y d ok kids).cnt b := fun q b hb => by
      have := cnt_le kids q b
      rw [hcnt]; omega
    have hne : ∀ q b, 0 < (kids q).cnt b → b ≠ a := fun q b hb e => by subst e; have := cnt_le kids q b; omega
    have hdk : ∀ q b, (kids q).cnt b ≤ 1 := fun q b => by have h1 := cnt_le kids q b; have h2 := hd b; rw [hcnt] at h2; omega
    have hdj : ∀ q r b, q ≠ r → 0 < (kids q).cnt b → ¬ 0 < (kids r).cnt b := fun q r b hqr h1 h2 => by
      have h3 := cnt_le2 kids hqr b; have h4 := hd b; rw [hcnt] at h4; omega
    show Ref (newRootH xr yr dir (f + 1) (some a) l m) (setNewRoot xr yr dir (mk x y d ok fun q => (kids q).tree)) _
    rw [setNewRoot_mk]
    obtain ⟨hs12, hs1, hs2⟩ := rootSides_ne dir
    simp only [newRootH]
    revert hs12 hs1 hs2
    generalize (rootSides dir).1.1 = s1
    generalize (rootSides dir).1.2 = d1
    generalize (rootSides dir).2.1 = s2
    generalize (rootSides dir).2.2 = d2
    intro hs12 hs1 hs2
    rw [kidOf_eq hc]
    simp only [obind_ok]
    rw [hkid s1]
    have A1 := adjust_spec xr yr d1 I (kids s1) (m.next + 1) a s1 c l m H hrc hcl (hsh.2 s1).1 (hsh.2 s1).2 (hdk s1) (fun b hb => hI b (hsk s1 b hb))
      (by have := cnt_le kids s1 a; omega) hIa hc (hkid s1) (fun r b hr hb hb' => by
        rw [hkid r] at hb'
        exact hdj r s1 b hr (root_pos hb') (root_pos hb))
      (hanch.anti fun b h => by
        rcases h with e | h
        · subst e; exact root_pos rfl
        · exact hsk s1 b h)
      ((hsh.2 s1).1.depth_le hrc (hdk s1))
    refine Ref.bind A1 ?_
    rintro ⟨l1, m1⟩ ⟨pt1, pl1⟩ ⟨t1, us1, as1, A1⟩
    have eL := A1.list; have eT := A1.tree1; have eU := A1.trees
    dsimp only at eL eT eU
    subst eL eT eU
    have rc1 := A1.rc
    dsimp only at rc1
    have hcl1 : Clean I m1 := hcl.frame A1.fr (fun b hb => by
      rcases hb with e | hb
      · subst e; exact hIa
      · exact hI b (hsk s1 b hb))
    obtain ⟨an1, c1, hc1⟩ := hanch.step A1.fr rc1 (fun b => holds_le H as1 b) (fun b h => by
      rcases h with e | h
      · subst e; exact root_pos rfl
      · exact hsk s1 b h)
    have kd1 := A1.kid c1 hc1
    have sh1 : Sh I m1 (node a x y d ok (updQ kids s1 t1)) := hsh.replace hd A1.fr rc1 hc hc1 kd1 A1.sh A1.lk
    have cn1 : ∀ b, (node a x y d ok (updQ kids s1 t1)).cnt b + cntAll us1 b = (node a x y d ok kids).cnt b := fun b => by
      have h1 := cntK_upd kids s1 t1 b
      have h2 := A1.cnt b
      rw [cnt_node, cnt_node]; omega
    have e2 : updQ kids s1 t1 s2 = kids s2 := updQ_ne _ _ (Ne.symm hs12)
    have k2 : c1.kid s2 = (kids s2).root := by rw [kd1 s2, if_neg (Ne.symm hs12), hkid s2]
    simp only [kidOf_eq hc1, obind_ok, k2]
    have shs2 := sh1.2 s2
    rw [e2] at shs2
    have hdk1 : ∀ b, (node a x y d ok (updQ kids s1 t1)).cnt b ≤ 1 := fun b => by have h1 := cn1 b; have h2 := hd b; omega
    have hnx1 : m1.next = m.next := A1.fr.next
    have A2 := adjust_spec xr yr d2 I (kids s2) (m.next + 1) a s2 c1 (l ++ as1) m1 (holds H as1) rc1 hcl1 shs2.1 shs2.2 (hdk s2) (fun b hb => hI b (hsk s2 b hb))
      (by have := cnt_le kids s2 a; omega) hIa hc1 k2 (fun r b hr hb hb' => by
        rw [kd1 r] at hb'
        split at hb'
        · have h1 := root_pos hb'
          have h2 := A1.cnt b
          exact hdj s1 s2 b hs12 (by omega) (root_pos hb)
        · rw [hkid r] at hb'
          exact hdj r s2 b hr (root_pos hb') (root_pos hb))
      (an1.anti fun b h => by
        rcases h with e | h
        · subst e; exact root_pos rfl
        · exact hsk s2 b h)
      (by rw [← hnx1]; exact shs2.1.depth_le rc1 (hdk s2))
    refine Ref.bind A2 ?_
    rintro ⟨l2, m2⟩ ⟨pt2, pl2⟩ ⟨t2, us2, as2, A2⟩
    have eL := A2.list; have eT := A2.tree1; have eU := A2.trees
    dsimp only at eL eT eU
    subst eL eT eU
    have rc2 := A2.rc
    dsimp only at rc2
    have hcl2 : Clean I m2 := hcl1.frame A2.fr (fun b hb => by
      rcases hb with e | hb
      · subst e; exact hIa
      · exact hI b (hsk s2 b hb))
    obtain ⟨an2, c2, hc2⟩ := an1.step A2.fr rc2 (fun b => holds_le _ as2 b) (fun b h => by
      rcases h with e | h
      · subst e; exact root_pos rfl
      · exact hsk s2 b h)
    have kd2 := A2.kid c2 hc2
    have fr2 := A2.fr
    rw [← e2] at fr2
    have sh2 : Sh I m2 (node a x y d ok (updQ (updQ kids s1 t1) s2 t2)) := sh1.replace hdk1 fr2 rc2 hc1 hc2 kd2 A2.sh A2.lk
    have cn2 : ∀ b, (node a x y d ok (updQ (updQ kids s1 t1) s2 t2)).cnt b + cntAll us1 b + cntAll us2 b = (node a x y d ok kids).cnt b := fun b => by
      have h1 := cntK_upd (updQ kids s1 t1) s2 t2 b
      have h2 := A2.cnt b
      have h3 := cn1 b
      rw [e2] at h1
      rw [cnt_node] at h3 ⊢; omega
    have hdk2 : ∀ b, (node a x y d ok (updQ (updQ kids s1 t1) s2 t2)).cnt b ≤ 1 := fun b => by have h1 := cn2 b; have h2 := hd b; omega
    have e3 : updQ (updQ kids s1 t1) s2 t2 dir = kids dir := by rw [updQ_ne _ _ (Ne.symm hs2), updQ_ne _ _ (Ne.symm hs1)]
    have k3 : c2.kid dir = (kids dir).root := by rw [kd2 dir, if_neg (Ne.symm hs2), kd1 dir, if_neg (Ne.symm hs1), hkid dir]
    simp only [kidOf_eq hc2, obind_ok, k3]
    have shs3 := sh2.2 dir
    rw [e3] at shs3
    have N := ih dir f a (l ++ as1 ++ as2) m2 (holds (holds H as1) as2) rc2 hcl2 shs3.1 shs3.2 (hdk dir) (fun b hb => hI b (hsk dir b hb))
      (fun k hk => .kid dir (an2.anti fun b h => hsk dir b h) (by have := cnt_le kids dir a; omega) hc2 (k3.trans hk))
      (by have := depth_kid a x y d ok kids dir; omega)
    rw [show newRootH xr yr dir f (kids dir).root (l ++ as1 ++ as2) m2 = (newRootH xr yr dir f (kids dir).root (l ++ as1 ++ as2) m2).bind .ok by
      cases newRootH xr yr dir f (kids dir).root (l ++ as1 ++ as2) m2 <;> rfl]
    refine Ref.bind N ?_
    rintro ⟨l3, m3⟩ ⟨pt3, pl3⟩ ⟨t3, us3, as3, N⟩
    have eL := N.list; have eT := N.tree1; have eU := N.trees
    dsimp only at eL eT eU
    subst eL eT eU
    have rc3 := N.rc
    dsimp only at rc3
    obtain ⟨an3, c3, hc3⟩ := an2.step N.fr rc3 (fun b => holds_le _ as3 b) (fun b h => hsk dir b h)
    obtain ⟨cz, hz, xz, yz, dz, kz, pz⟩ := N.fr.cell a c3 hc3
    rw [hc2] at hz; cases hz
    have kz := kz (fun h => hne dir a h rfl)
    have fr3 : Fr m2 m3 (fun b => b = a ∨ 0 < (updQ (updQ kids s1 t1) s2 t2 dir).cnt b) (fun b => 0 < (updQ (updQ kids s1 t1) s2 t2 dir).cnt b) := by
      rw [e3]; exact N.fr.mono (fun b h => .inr h) (fun b h => h)
    have sh3 : Sh I m3 (node a x y d ok (updQ (updQ (updQ kids s1 t1) s2 t2) dir t3)) := sh2.replace hdk2 fr3 rc3 hc2 hc3 (fun r => by
      rw [kz r]
      split
      · next e => rw [e, k3, N.root]
      · rfl) N.sh N.lk
    have frA : Fr m m3 (fun b => 0 < (node a x y d ok kids).cnt b) (fun b => 0 < cntK kids b) := by
      refine ((A1.fr.mono (fun b h => ?_) (fun b h => ?_)).trans (A2.fr.mono (fun b h => ?_) (fun b h => ?_))).trans (N.fr.mono (fun b h => ?_) (fun b h => ?_))
      · rcases h with e | h
        · subst e; exact root_pos rfl
        · exact hsk s1 b h
      · have := cnt_le kids s1 b; omega
      · rcases h with e | h
        · subst e; exact root_pos rfl
        · exact hsk s2 b h
      · have := cnt_le kids s2 b; omega
      · exact hsk dir b h
      · have := cnt_le kids dir b; omega
    refine ⟨_, rfl, node a x y d ok (updQ (updQ (updQ kids s1 t1) s2 t2) dir t3), us1 ++ us2 ++ us3, as1 ++ as2 ++ as3, ?_⟩
    refine ⟨?_, ?_, ?_, ?_, ?_, ?_, sh3, ?_, ?_, ?_, rfl, ?_⟩
    · simp only [List.append_assoc]
    · simp only [List.map_append, A1.ads, A2.ads, N.ads]
    · dsimp only [tree]
      rw [updQ_map, updQ_map, updQ_map]
    · simp only [List.map_append]
    · rw [holds_append, holds_append]; exact rc3
    · exact frA.mono (fun b h => h) (fun b h => by rw [hcnt]; omega)
    · exact hlk.frame frA (fun b hb => by cases hb; show ¬ 0 < cntK kids a; omega) (fun b hb => by cases hb; exact ⟨c3, hc3⟩)
    · intro u hu
      dsimp only
      have al : ∀ b, u.root = some b → b ∈ as1 ++ as2 ++ as3 := fun b hb => by
        refine root_mem (us := us1 ++ us2 ++ us3) ?_ hu hb
        simp only [List.map_append, A1.ads, A2.ads, N.ads]
      have al3 : ∀ b, u.root = some b → ∃ c, m3.cell b = some c := fun b hb => by
        refine rc3.held ?_
        have := List.count_pos_iff.2 (al b hb)
        simp only [List.count_append] at this
        simp only [holds]; omega
      have al2 : ∀ b, u.root = some b → ∃ c, m2.cell b = some c := fun b hb => by
        obtain ⟨cc, hcc⟩ := al3 b hb
        obtain ⟨c0, h0, _⟩ := N.fr.cell b cc hcc
        exact ⟨c0, h0⟩
      rcases List.mem_append.1 hu with h | h
      · rcases List.mem_append.1 h with h | h
        · have sub : ∀ b, 0 < u.cnt b → 0 < (kids s1).cnt b := fun b hb => by
            have h1 := A1.cnt b; have h2 := cnt_le_cntAll h b; omega
          refine ((A1.shs u h).frame A2.fr rc2 (fun b hb h => h.elim (hne s1 b (sub b hb)) (hdj s1 s2 b hs12 (sub b hb)))
            (fun b hb => hdj s1 s2 b hs12 (sub b hb)) al2).frame N.fr rc3 ?_ ?_ al3
          · exact fun b hb => hdj s1 dir b hs1 (sub b hb)
          · exact fun b hb => hdj s1 dir b hs1 (sub b hb)
        · have sub : ∀ b, 0 < u.cnt b → 0 < (kids s2).cnt b := fun b hb => by
            have h1 := A2.cnt b; have h2 := cnt_le_cntAll h b; omega
          exact (A2.shs u h).frame N.fr rc3 (fun b hb => hdj s2 dir b hs2 (sub b hb)) (fun b hb => hdj s2 dir b hs2 (sub b hb)) al3
      · exact N.shs u h
    · intro b
      have h1 := cntK_upd (updQ (updQ kids s1 t1) s2 t2) dir t3 b
      have h2 := cn2 b
      have h3 := N.cnt b
      rw [e3] at h1
      rw [cntAll_append, cntAll_append]
      rw [cnt_node] at h2 ⊢
      omega
    · by_cases hz : kids dir = nil
      · have : t3 = nil := root_none (by rw [N.root, hz]; rfl)
        rw [last_stop hz, last_stop (by rw [updQ_same]; exact this)]
        rfl
      · have : t3 ≠ nil := fun e => hz (root_none (by rw [← N.root, e]; rfl))
        rw [last_step hz, last_step (by rw [updQ_same]; exact this), updQ_same, N.last]

end Mdds.Quad
