import Verif.Quad.HeapInner2
/-!
`remove` of a node with children in the heap: the final steps.
-/
namespace Mdds.Quad

open AT

variable {V : Type} {I : Nat → Prop} {mA : Mem V} {N ch : Nat → Nat} {del r : Nat} {q : Quadrant} {us : List (AT V)} {m : Mem V} {H : Nat → Nat} {kd rk : Quadrant → AT V}

theorem obind_id {α : Type} (o : Outcome α) : o.bind .ok = o := by cases o <;> rfl

theorem sides_ne (q : Quadrant) : (sides q).1 ≠ (sides q).2 ∧ (sides q).1 ≠ q ∧ (sides q).2 ≠ q := by cases q <;> decide

theorem move_spec (h : Mid I mA N ch del r q us m H kd rk) (x y : Int) (d : V) (ok : Bool) (Q : Tree V) :
    Ref (moveH del r q m) (moveP (mk x y d ok (updQ (fun z => (kd z).tree) q Q)) q (rk (sides q).1).tree (rk (sides q).2).tree) fun m' T => ∃ kd',
      T = mk x y d ok (updQ (fun z => (kd' z).tree) q Q) ∧ Mid I mA N ch del r q us m' H kd' (updQ (updQ rk (sides q).1 nil) (sides q).2 nil) := by
  obtain ⟨h12, h1q, h2q⟩ := sides_ne q
  simp only [moveH, moveP]
  revert h12 h1q h2q
  generalize (sides q).1 = s1
  generalize (sides q).2 = s2
  intro h12 h1q h2q
  obtain ⟨c1, hc1, k1⟩ := h.cr
  simp only [get_eq hc1, obind_ok, k1 s1]
  obtain ⟨m1, e1, rc1, f1, l1⟩ := addRef_ok (rk s1).root h.rc (fun a ha => h.rc.kid hc1 (q := s1) (by rw [k1 s1]; exact ha))
  have up : ∀ (H : Nat → Nat) o b, 0 < H b → 0 < hold H o b := fun H o b hb => Nat.lt_of_lt_of_le hb (hold_le H o b)
  have M1 := mid_still h f1 rc1 (up _ _ _ h.hd) (up _ _ _ h.hr) (fun u hu b hb => up _ _ _ (h.hu u hu b hb))
  obtain ⟨m2, e2, M2⟩ := mid_off M1 s1 (fun b hb => by rw [hb, hold_self]; omega)
  simp only [e1, e2, obind_ok]
  refine Ref.bind (mid_put M2 s1 h1q x y d ok Q) ?_
  rintro m3 T ⟨kd3, rfl, M3⟩
  obtain ⟨c3, hc3, k3⟩ := M3.cr
  have k3' : c3.kid s2 = (rk s2).root := by rw [k3 s2, updQ_ne _ _ (Ne.symm h12)]
  simp only [get_eq hc3, obind_ok, k3']
  obtain ⟨m4, e4, rc4, f4, l4⟩ := addRef_ok (rk s2).root M3.rc (fun a ha => M3.rc.kid hc3 (q := s2) (by rw [k3']; exact ha))
  have M4 := mid_still M3 f4 rc4 (up _ _ _ M3.hd) (up _ _ _ M3.hr) (fun u hu b hb => up _ _ _ (M3.hu u hu b hb))
  rw [hold_comm] at rc4
  obtain ⟨m5, e5, rc5, f5⟩ := release_ok _ rc4
  have M5 := mid_still M4 f5 rc5 (up _ _ _ h.hd) (up _ _ _ h.hr) (fun u hu b hb => up _ _ _ (h.hu u hu b hb))
  obtain ⟨m6, e6, M6⟩ := mid_off M5 s2 (fun b hb => by rw [updQ_ne _ _ (Ne.symm h12)] at hb; rw [hb, hold_self]; omega)
  rw [updQ_ne _ _ (Ne.symm h12)] at M6
  simp only [e4, e5, e6, obind_ok]
  rw [show reinsertTreeAt (mk x y d ok (updQ (fun z => (kd3 z).tree) q Q)) s2 (rk s2).tree = (reinsertTreeAt (mk x y d ok (updQ (fun z => (kd3 z).tree) q Q)) s2 (rk s2).tree).bind .ok by
    cases reinsertTreeAt (mk x y d ok (updQ (fun z => (kd3 z).tree) q Q)) s2 (rk s2).tree <;> rfl]
  refine Ref.bind (mid_put M6 s2 h2q x y d ok Q) ?_
  rintro m7 T ⟨kd7, rfl, M7⟩
  obtain ⟨m8, e8, rc8, f8⟩ := release_ok _ M7.rc
  exact ⟨m8, e8, kd7, rfl, mid_still M7 f8 rc8 h.hd h.hr h.hu⟩

/-- What the loop at the end leaves. -/
structure ReinsL (I : Nat → Prop) (m : Mem V) (H : Nat → Nat) (dest : Nat) (D : AT V) (us : List (AT V)) (m' : Mem V) (T : Tree V) (D' : AT V) : Prop where
  tree : T = D'.tree
  root : D'.root = some dest
  rc : RC m' H
  fr : Fr m m' (fun b => 0 < D.cnt b + cntAll us b) (fun b => 0 < cntAll us b)
  sh : Sh I m' D'
  cnt : ∀ b, D'.cnt b = D.cnt b + cntAll us b
  lk : ∀ J (μ : Mem V) p, Lk J μ p D → Lk J μ p D'

theorem reinsertH_list (I : Nat → Prop) : ∀ (us : List (AT V)) (as : List Nat) (dest : Nat) (D : AT V) (m : Mem V) (H : Nat → Nat),
    RC m H → Sh I m D → D.root = some dest → (∀ u ∈ us, Sh I m u) → us.map root = as.map some → (∀ b, D.cnt b + cntAll us b ≤ 1) → 0 < H dest → (∀ a ∈ as, 0 < H a) →
    Ref (reinsertListH dest as m) (reinsertList D.tree (us.map tree)) fun m' T => ∃ D', ReinsL I m H dest D us m' T D' := by
  intro us
  induction us with
  | nil =>
    intro as dest D m H hrc hD hdest hus has hd hh hha
    cases as with
    | cons => cases has
    | nil => exact ⟨m, rfl, D, rfl, hdest, hrc, .refl .., hD, fun b => rfl, fun _ _ _ h => h⟩
  | cons u us ih =>
    intro as dest D m H hrc hD hdest hus has hd hh hha
    cases as with
    | nil => cases has
    | cons a as =>
      simp only [List.map_cons, List.cons.injEq] at has
      obtain ⟨hur, has⟩ := has
      simp only [cntAll] at hd
      have hd1 : ∀ b, D.cnt b + u.cnt b ≤ 1 := fun b => by have := hd b; omega
      have shu := hus u (List.mem_cons_self ..)
      simp only [reinsertListH]
      show Ref _ ((reinsertTree D.tree u.tree).bind fun d => reinsertList d (us.map tree)) _
      refine Ref.bind (reinsert_spec I u (m.next + 1) (shu.depth_le hrc (fun b => by have := hd1 b; omega)) dest a D m H hrc hD hdest shu hur hd1
        (.held hh) (.held (hha a (List.mem_cons_self ..)))) ?_
      rintro m1 T ⟨D1, R⟩
      rw [R.tree]
      have hus1 : ∀ v ∈ us, Sh I m1 v := fun v hv => by
        have n1 : ∀ b, 0 < v.cnt b → ¬ 0 < D.cnt b + u.cnt b := fun b hb h' => by
          have h1 := cnt_le_cntAll hv b; have h2 := hd b; omega
        exact (hus v (List.mem_cons_of_mem _ hv)).frame R.fr R.rc n1 (fun b hb h' => n1 b hb (by omega))
          (fun b hb => R.rc.held (hha b (List.mem_cons_of_mem _ (root_mem has hv hb))))
      refine (ih as dest D1 m1 H R.rc R.sh R.root hus1 has (fun b => by have h1 := R.cnt b; have h2 := hd b; omega) hh
        (fun b hb => hha b (List.mem_cons_of_mem _ hb))).mono ?_
      rintro m2 T2 ⟨D2, L⟩
      refine ⟨D2, L.tree, L.root, L.rc, ?_, L.sh, fun b => by rw [L.cnt b, R.cnt b, cntAll]; omega, fun J μ p h => L.lk J μ p (R.lk J μ p h)⟩
      refine (R.fr.mono (fun b hb => ?_) (fun b hb => ?_)).trans (L.fr.mono (fun b hb => ?_) (fun b hb => ?_))
      · simp only [cntAll]; omega
      · simp only [cntAll]; omega
      · have := R.cnt b; simp only [cntAll]; omega
      · simp only [cntAll]; omega

theorem releaseAll_ok : ∀ (l : List Nat) {m : Mem V} {H : Nat → Nat}, RC m (holds H l) → ∃ m', releaseAll l m = .ok m' ∧ RC m' H ∧ Fr m m' nowhere nowhere := by
  intro l
  induction l with
  | nil => intro m H h; exact ⟨m, rfl, by simpa using h, .refl ..⟩
  | cons a l ih =>
    intro m H h
    rw [holds_cons, ← hold_holds] at h
    obtain ⟨m1, e1, r1, f1⟩ := release_ok (some a) h
    obtain ⟨m2, e2, r2, f2⟩ := ih r1
    exact ⟨m2, by simp only [releaseAll, e1, obind_ok, e2], r2, f1.trans f2⟩

/-- What is not lost. -/
def keepI (I : Nat → Prop) (ch : Nat → Nat) (r : Nat) : Nat → Prop := fun b => I b ∧ ch b = 0 ∧ b ≠ r

/-- The outcome of removing a node with children: `t'` in place of `t`, where `I'` is what is still reachable. -/
structure Gone (I : Nat → Prop) (m : Mem V) (H : Nat → Nat) (del : Nat) (N : Nat → Nat) (m' : Mem V) (T : Tree V) (t' : AT V) (I' : Nat → Prop) : Prop where
  tree : T = t'.tree
  root : t'.root = some del
  rc : RC m' H
  fr : Fd m m' (fun b => 0 < N b) (fun b => 0 < N b)
  sh : Sh I' m' t'
  lk : ∀ p, Lk I' m' p t'
  cnt : ∀ b, t'.cnt b ≤ N b
  inI : ∀ b, I' b ↔ I b ∧ (0 < N b → 0 < t'.cnt b)
  clean : Clean I' m'

set_option maxHeartbeats 1000000 in
theorem finish_spec {as : List Nat} {x y : Int} {d : V} {ok : Bool} {Q : Tree V} {cA : Cell V} {b0 : Nat}
    (h : Mid I mA N ch del r q us m (holds (hold H (some r)) as) kd rk) (hH : 0 < H del) (has : us.map root = as.map some)
    (hrk : ∀ s, s ≠ q → rk s = nil) (hcA : mA.cell r = some cA) (hpA : cA.par = some b0) (hb0 : b0 = del ∨ b0 = r ∨ 0 < ch b0 ∨ ¬ I b0)
    (hcl : Clean I mA) (hI : ∀ b, 0 < N b → I b) (hch : ∀ b c s k, 0 < ch b → mA.cell b = some c → c.kid s = some k → 0 < ch k ∨ k = r) :
    Ref (finishH del r q as m) (reinsertList (((mk x y d ok (updQ (fun z => (kd z).tree) q Q)).overwrite ⟨cA.x, cA.y, cA.d⟩).setChild q ((rk q).tree.setOk false)) (us.map tree))
      fun m' T => ∃ t' I', Gone I mA H del N m' T t' I' := by
  have hne := mid_ne h
  have cnN := h.cnt
  have one := h.one
  obtain ⟨c, hc, kd0⟩ := h.cd
  obtain ⟨r3, hr3, kr0⟩ := h.cr
  obtain ⟨cz, hz, xr, yr, dr, _, pr⟩ := h.fr.cell r r3 hr3
  rw [hcA] at hz; cases hz
  have pr : r3.par = some b0 := (pr (fun h => h.2.2.1 rfl)).trans hpA
  -- coordinates
  have rc1 : RC (m.put del (some { c with x := r3.x, y := r3.y, d := r3.d })) (holds (hold H (some r)) as) := h.rc.put hc (fun b => rfl)
  generalize hm1 : m.put del (some { c with x := r3.x, y := r3.y, d := r3.d }) = m1 at rc1
  have hc1 : m1.cell del = some { c with x := r3.x, y := r3.y, d := r3.d } := by rw [← hm1, put_same]
  have ho1 : ∀ b, b ≠ del → m1.cell b = m.cell b := fun b hb => by rw [← hm1, put_ne _ _ hb]
  have al1 : ∀ b c, m.cell b = some c → ∃ c, m1.cell b = some c := fun b c hb => by
    by_cases e : b = del
    · exact e ▸ ⟨_, hc1⟩
    · exact ⟨c, by rw [ho1 b e]; exact hb⟩
  have F1 : Fd m m1 (fun b => b = del ∨ b = r) (fun b => b = del ∨ b = r) := by
    refine ⟨by rw [← hm1]; rfl, fun b c' hb => ?_⟩
    by_cases e : b = del
    · subst e; exact ⟨c, hc, fun hn => absurd (.inl rfl) hn, fun hn => absurd (.inl rfl) hn⟩
    · rw [ho1 b e] at hb; exact ⟨c', hb, fun _ _ => rfl, fun _ => ⟨rfl, rfl, rfl, rfl⟩⟩
  obtain ⟨cb, hcb⟩ := h.rc.par hr3 pr
  obtain ⟨m2, e2, rc2, f2, g2⟩ := assignPar_ok (some b0) rc1 hc1 (fun k hk => by cases hk; exact al1 _ _ hcb)
  have hHd : 0 < holds (hold H (some r)) as del := Nat.lt_of_lt_of_le (Nat.lt_of_lt_of_le hH (hold_le _ _ _)) (holds_le _ _ _)
  have hHr : 0 < holds (hold H (some r)) as r := Nat.lt_of_lt_of_le (by rw [hold_self]; omega) (holds_le _ as r)
  obtain ⟨cr2, hcr2⟩ := rc2.held hHr
  obtain ⟨m3, e3, rc3, f3, g3⟩ := assignPar_ok none rc2 hcr2 (fun k hk => by cases hk)
  obtain ⟨r4, hr4⟩ := rc3.held hHr
  have f23 : Fr m1 m3 nowhere (fun b => b = del ∨ b = r) := (f2.mono (fun _ h => h) (fun _ h => .inl h)).trans (f3.mono (fun _ h => h) (fun _ h => .inr h))
  have kr4 : ∀ s, r4.kid s = (rk s).root := fun s => by
    obtain ⟨c0, h0, _, _, _, k0, _⟩ := f23.cell r r4 hr4
    rw [ho1 r (Ne.symm hne), hr3] at h0; cases h0
    rw [k0 id s, kr0 s]
  obtain ⟨cd3, hcd3⟩ := rc3.held hHd
  obtain ⟨m4, e4, rc4, f4, g4⟩ := assignKid_ok q (rk q).root rc3 hcd3 (fun k hk => rc3.kid hr4 (q := q) (by rw [kr4 q]; exact hk))
  obtain ⟨cr4, hcr4⟩ := rc4.held hHr
  obtain ⟨m5, e5, rc5, f5, g5⟩ := assignKid_ok q none rc4 hcr4 (fun k hk => by cases hk)
  obtain ⟨cd5, hcd5⟩ := rc5.held hHd
  obtain ⟨cr5, hcr5⟩ := rc5.held hHr
  have f15 : Fr m1 m5 (fun b => b = del ∨ b = r) (fun b => b = del ∨ b = r) :=
    ((f23.mono (fun _ h => h.elim) (fun _ h => h)).trans (f4.mono (fun _ h => .inl h) (fun _ h => h.elim))).trans (f5.mono (fun _ h => .inr h) (fun _ h => h.elim))
  have F5 : Fd m m5 (fun b => b = del ∨ b = r) (fun b => b = del ∨ b = r) := F1.trans f15.toFd
  -- the two nodes afterwards
  have kd5 : ∀ s, cd5.kid s = if s = q then (rk q).root else (kd s).root := fun s => by
    obtain ⟨c4, h4, _, _, _, k4, _⟩ := f5.cell del cd5 hcd5
    rw [k4 hne s, g4 c4 h4 s]
    split
    · rfl
    · next e =>
      obtain ⟨c0, h0, _, _, _, k0, _⟩ := f23.cell del cd3 hcd3
      rw [hc1] at h0; cases h0
      rw [k0 id s]
      have := kd0 s e
      cases s <;> exact this
  have xy5 : cd5.x = cA.x ∧ cd5.y = cA.y ∧ cd5.d = cA.d := by
    obtain ⟨c0, h0, hx, hy, hdd, _⟩ := f15.cell del cd5 hcd5
    rw [hc1] at h0; cases h0
    exact ⟨hx.trans xr, hy.trans yr, hdd.trans dr⟩
  have par5 : cd5.par = some b0 := by
    obtain ⟨c4, h4, _, _, _, _, p4⟩ := f5.cell del cd5 hcd5
    obtain ⟨c3, h3, _, _, _, _, p3⟩ := f4.cell del c4 h4
    obtain ⟨c2, h2, _, _, _, _, p2⟩ := f3.cell del c3 h3
    rw [p4 id, p3 id, p2 hne, g2 c2 h2]
  have kr5 : ∀ s, cr5.kid s = none := fun s => by
    rw [g5 cr5 hcr5 s]
    split
    · rfl
    · next e =>
      obtain ⟨c3, h3, _, _, _, k3, _⟩ := f4.cell r cr4 hcr4
      rw [hr4] at h3; cases h3
      rw [k3 (Ne.symm hne) s, kr4 s, hrk s e]; rfl
  -- counting
  have nd : ∀ b, 0 < cntK kd b + cntK rk b + cntAll us b → ¬ (b = del ∨ b = r) := fun b hb h' => by
    have h1 := cnN b; have h2 := one b
    rcases h' with e | e <;> rw [if_pos e] at h1 <;> omega
  have hrkq : ∀ b, cntK rk b = (rk q).cnt b := fun b => by
    have h1 := hrk .ne; have h2 := hrk .nw; have h3 := hrk .se; have h4 := hrk .sw
    cases q <;> simp [cntK, h1, h2, h3, h4, AT.cnt]
  have toI : ∀ b c, m.cell b = some c → keepI I ch r b → I b := fun b _ _ h => h.1
  -- the tree before the loop
  have kidsSh : ∀ s, Sh (keepI I ch r) m5 (updQ kd q ((rk q).setOk false) s) ∧ Lk (keepI I ch r) m5 (some del) (updQ kd q ((rk q).setOk false) s) := by
    intro s
    by_cases e : s = q
    · subst e
      rw [updQ_same]
      have al : ∀ b, (rk s).root = some b → ∃ c, m5.cell b = some c := fun b hb => rc5.kid hcd5 (q := s) (by rw [kd5 s, if_pos rfl]; exact hb)
      have n1 : ∀ b, 0 < (rk s).cnt b → ¬ (b = del ∨ b = r) := fun b hb => nd b (by have := cnt_le rk s b; omega)
      have s5 : Sh (keepI I ch r) m5 (rk s) := ((h.shr s).1.mono toI h.rc).frameD F5 rc5 n1 n1 al
      have l5 : Lk (keepI I ch r) m5 (some r) (rk s) := ((h.shr s).2.mono toI h.rc).frameD F5 (fun b hb => n1 b (root_pos hb)) al
      refine ⟨setOk_sh false s5, ?_⟩
      revert l5
      cases rk s with
      | nil => exact fun _ => trivial
      | node a ax ay ad aok ak =>
        rintro ⟨c, hc, h1, h2⟩
        refine ⟨c, hc, fun h => (by cases h), fun _ => ?_⟩
        cases aok with
        | true => exact ⟨r, h1 rfl, .inr (fun h => h.2.2 rfl)⟩
        | false => exact h2 rfl
    · rw [updQ_ne _ _ e]
      have al : ∀ b, (kd s).root = some b → ∃ c, m5.cell b = some c := fun b hb => rc5.kid hcd5 (q := s) (by rw [kd5 s, if_neg e]; exact hb)
      have n1 : ∀ b, 0 < (kd s).cnt b → ¬ (b = del ∨ b = r) := fun b hb => nd b (by have := cnt_le kd s b; omega)
      exact ⟨((h.shd s).1.mono toI h.rc).frameD F5 rc5 n1 n1 al, ((h.shd s).2.mono toI h.rc).frameD F5 (fun b hb => n1 b (root_pos hb)) al⟩
  have sh5 : Sh (keepI I ch r) m5 (node del cA.x cA.y cA.d false (updQ kd q ((rk q).setOk false))) := by
    refine ⟨⟨cd5, hcd5, xy5.1, xy5.2.1, xy5.2.2, fun s => ?_⟩, kidsSh⟩
    rw [kd5 s, updQ]
    split
    · rw [setOk_root]
    · rfl
  have lk5 : ∀ p, Lk (keepI I ch r) m5 p (node del cA.x cA.y cA.d false (updQ kd q ((rk q).setOk false))) := fun p => by
    refine ⟨cd5, hcd5, fun h => (by cases h), fun _ => ⟨b0, par5, ?_⟩⟩
    rcases hb0 with h | h | h | h
    · exact .inl h
    · exact .inr (fun h' => h'.2.2 h)
    · exact .inr (fun h' => by have := h'.2.1; omega)
    · exact .inr (fun h' => h h'.1)
  have shs5 : ∀ u ∈ us, Sh (keepI I ch r) m5 u := fun u hu => by
    have n1 : ∀ b, 0 < u.cnt b → ¬ (b = del ∨ b = r) := fun b hb => nd b (by have := cnt_le_cntAll hu b; omega)
    exact ((h.shs u hu).mono toI h.rc).frameD F5 rc5 n1 n1 (fun b hb => rc5.held (h.hu u hu b hb))
  have cnt5 : ∀ b, (node del cA.x cA.y cA.d false (updQ kd q ((rk q).setOk false))).cnt b + cntAll us b + ch b + (if b = r then 1 else 0) = N b := fun b => by
    have h1 := cnN b; have h2 := cntK_upd kd q ((rk q).setOk false) b; have h3 := hrkq b
    rw [setOk_cnt, h.knil] at h2
    simp only [AT.cnt] at h2
    rw [cnt_node]; omega
  -- the model
  have pure1 : ((mk x y d ok (updQ (fun z => (kd z).tree) q Q)).overwrite ⟨cA.x, cA.y, cA.d⟩).setChild q ((rk q).tree.setOk false) =
      (node del cA.x cA.y cA.d false (updQ kd q ((rk q).setOk false))).tree := by
    show (mk cA.x cA.y cA.d false (updQ (fun z => (kd z).tree) q Q)).setChild q _ = mk _ _ _ _ _
    rw [setChild_mk, updQ_map, AT.setOk_tree]
    congr 1
    funext z; simp only [updQ]; split <;> rfl
  rw [pure1]
  have Lp := reinsertH_list (keepI I ch r) us as del _ m5 _ rc5 sh5 rfl shs5 has (fun b => by have h1 := cnt5 b; have h2 := one b; omega) hHd
    (fun a ha => by have := List.count_pos_iff.2 ha; simp only [holds]; omega)
  simp only [finishH, get_eq hr3, upd_eq _ hc, hm1, obind_ok, pr, e2, e3, get_eq hr4, kr4 q, e4, e5]
  rw [← obind_id (reinsertList _ _)]
  refine Ref.bind Lp ?_
  rintro m6 T ⟨D, L⟩
  rw [L.tree]
  obtain ⟨m7, e7, rc7, f7⟩ := releaseAll_ok as L.rc
  obtain ⟨m8, e8, rc8, f8⟩ := release_ok (some r) rc7
  have f68 : Fr m6 m8 nowhere nowhere := f7.trans f8
  have alD : ∀ a, D.root = some a → ∃ c, m8.cell a = some c := fun a ha => by rw [L.root] at ha; cases ha; exact rc8.held hH
  obtain ⟨c8, hc8⟩ := rc8.held hH
  obtain ⟨c6, hc6, _⟩ := f68.cell del c8 hc8
  have cntD : ∀ b, D.cnt b + ch b + (if b = r then 1 else 0) = N b := fun b => by have h1 := L.cnt b; have h2 := cnt5 b; omega
  have FK : Fd mA m8 (fun b => ch b = 0 ∧ 0 < N b) (fun b => 0 < N b) := by
    refine (((h.fr.toFd.mono (fun _ h => h) (fun b h => h.2.2.2)).trans (F5.mono ?_ ?_)).trans (L.fr.toFd.mono ?_ ?_)).trans (f68.widen _ _).toFd
    · rintro b (e | e)
      · have h1 := cnN b; have h2 := one b; rw [if_pos e] at h1; omega
      · have h1 := cnN b; have h2 := one b; rw [if_pos e] at h1; omega
    · rintro b (e | e)
      · have h1 := cnN b; rw [if_pos e] at h1; omega
      · have h1 := cnN b; rw [if_pos e] at h1; omega
    · intro b hb; have h1 := cnt5 b; have h2 := one b; omega
    · intro b hb; have h1 := cnt5 b; omega
  refine ⟨m8, by simp only [e7, obind_ok, e8], D, keepI I ch r, rfl, L.root, rc8, FK.mono (fun _ h => h.2) (fun _ h => h), ?_, fun p => ?_, fun b => ?_, fun b => ?_, ?_⟩
  · exact L.sh.frame f68 rc8 (fun _ _ => id) (fun _ _ => id) alD
  · refine (L.lk _ _ p ((lk5 p).frame L.fr (fun b hb => ?_) (fun b hb => ?_))).frame f68 (fun _ _ => id) alD
    · cases hb
      have h1 := cnt5 del; have h2 := one del; rw [cnt_node, if_pos rfl] at h1; omega
    · cases hb; exact ⟨c6, hc6⟩
  · have := cntD b; omega
  · have h1 := cntD b; have h2 := one b
    unfold keepI
    constructor
    · rintro ⟨hi, hc0, hr0⟩
      rw [if_neg hr0] at h1
      exact ⟨hi, fun hn => by omega⟩
    · rintro ⟨hi, hn⟩
      refine ⟨hi, ?_, fun e => ?_⟩
      · by_contra hc0
        have := hn (by omega); omega
      · rw [if_pos e] at h1
        have := hn (by omega); omega
  · intro b c s k hb hcb hk hk'
    by_cases e : b = r
    · subst e
      have F58 : Fr m5 m8 (fun x => 0 < (node del cA.x cA.y cA.d false (updQ kd q ((rk q).setOk false))).cnt x + cntAll us x) (fun x => 0 < cntAll us x) := L.fr.trans (f68.widen _ _)
      obtain ⟨c0, h0, _, _, _, k0, _⟩ := F58.cell b c hcb
      rw [hcr5] at h0; cases h0
      rw [k0 (by have h1 := cnt5 b; have h2 := one b; rw [if_pos rfl] at h1; omega) s, kr5 s] at hk
      cases hk
    · obtain ⟨c0, h0, k0, _⟩ := FK.cell b c hcb
      have hK : ¬ (ch b = 0 ∧ 0 < N b) := fun h' => hb ⟨hI b h'.2, h'.1, e⟩
      rw [k0 hK s] at hk
      by_cases hc0 : 0 < ch b
      · rcases hch b c0 s k hc0 h0 hk with h' | h'
        · have := hk'.2.1; omega
        · exact hk'.2.2 h'
      · exact hcl b c0 s k (fun hi => hb ⟨hi, by omega, e⟩) h0 hk hk'.1

end Mdds.Quad
