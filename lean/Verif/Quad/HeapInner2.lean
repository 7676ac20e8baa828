import Verif.Quad.HeapInner
/-!
`remove` of a node with children in the heap: moving the side subtrees of the replacement.
-/
namespace Mdds.Quad

open AT

variable {V : Type}

/-- Between cutting and the final step: the children `kd` of `del` (without quadrant `q`), the children `rk` of the replacement `r`, the nodes `ch` that will
be lost and the loose trees `us` make up the nodes `N`; `mA` is the memory after cutting. -/
structure Mid (I : Nat → Prop) (mA : Mem V) (N ch : Nat → Nat) (del r : Nat) (q : Quadrant) (us : List (AT V)) (m : Mem V) (H : Nat → Nat)
    (kd rk : Quadrant → AT V) : Prop where
  rc : RC m H
  hd : 0 < H del
  hr : 0 < H r
  hu : ∀ u ∈ us, ∀ b, u.root = some b → 0 < H b
  one : ∀ b, N b ≤ 1
  knil : kd q = nil
  cd : ∃ c, m.cell del = some c ∧ ∀ s, s ≠ q → c.kid s = (kd s).root
  cr : ∃ c, m.cell r = some c ∧ ∀ s, c.kid s = (rk s).root
  shd : ∀ s, Sh I m (kd s) ∧ Lk I m (some del) (kd s)
  shr : ∀ s, Sh I m (rk s) ∧ Lk I m (some r) (rk s)
  shs : ∀ u ∈ us, Sh I m u
  fr : Fr mA m (fun b => ch b = 0 ∧ 0 < N b) (fun b => ch b = 0 ∧ b ≠ del ∧ b ≠ r ∧ 0 < N b)
  cnt : ∀ b, (if b = del then 1 else 0) + (if b = r then 1 else 0) + ch b + cntK kd b + cntK rk b + cntAll us b = N b

variable {I : Nat → Prop} {mA : Mem V} {N ch : Nat → Nat} {del r : Nat} {q : Quadrant} {us : List (AT V)} {m : Mem V} {H : Nat → Nat} {kd rk : Quadrant → AT V}

theorem mid_ne (h : Mid I mA N ch del r q us m H kd rk) : del ≠ r := fun e => by
  have h1 := h.cnt del; have h2 := h.one del
  rw [if_pos rfl, if_pos e] at h1; omega

theorem mid_still {m' : Mem V} {H' : Nat → Nat} (h : Mid I mA N ch del r q us m H kd rk) (f : Fr m m' nowhere nowhere) (rc : RC m' H')
    (hd : 0 < H' del) (hr : 0 < H' r) (hu : ∀ u ∈ us, ∀ b, u.root = some b → 0 < H' b) : Mid I mA N ch del r q us m' H' kd rk := by
  obtain ⟨c, hc⟩ := rc.held hd
  obtain ⟨c0, h0, _, _, _, k0, _⟩ := f.cell _ c hc
  obtain ⟨c1, h1, kd0⟩ := h.cd
  rw [h1] at h0; cases h0
  obtain ⟨d, hd'⟩ := rc.held hr
  obtain ⟨d0, i0, _, _, _, l0, _⟩ := f.cell _ d hd'
  obtain ⟨d1, i1, kr0⟩ := h.cr
  rw [i1] at i0; cases i0
  have kd1 : ∀ s, s ≠ q → c.kid s = (kd s).root := fun s hs => (k0 id s).trans (kd0 s hs)
  have kr1 : ∀ s, d.kid s = (rk s).root := fun s => (l0 id s).trans (kr0 s)
  refine ⟨rc, hd, hr, hu, h.one, h.knil, ⟨c, hc, kd1⟩, ⟨d, hd', kr1⟩, fun s => ?_, fun s => ?_, fun u hu' => ?_, h.fr.trans (f.widen _ _), h.cnt⟩
  · by_cases e : s = q
    · rw [e, h.knil]; exact ⟨trivial, trivial⟩
    · have al : ∀ b, (kd s).root = some b → ∃ c, m'.cell b = some c := fun b hb => rc.kid hc (q := s) (by rw [kd1 s e]; exact hb)
      exact ⟨(h.shd s).1.frame f rc (fun _ _ => id) (fun _ _ => id) al, (h.shd s).2.frame f (fun _ _ => id) al⟩
  · have al : ∀ b, (rk s).root = some b → ∃ c, m'.cell b = some c := fun b hb => rc.kid hd' (q := s) (by rw [kr1 s]; exact hb)
    exact ⟨(h.shr s).1.frame f rc (fun _ _ => id) (fun _ _ => id) al, (h.shr s).2.frame f (fun _ _ => id) al⟩
  · exact (h.shs u hu').frame f rc (fun _ _ => id) (fun _ _ => id) (fun b hb => rc.held (hu u hu' b hb))

/-- A held child of the replacement is taken off. -/
theorem mid_off (h : Mid I mA N ch del r q us m H kd rk) (s : Quadrant) (hs : ∀ b, (rk s).root = some b → 0 < H b) :
    ∃ m', assignKid r s none m = .ok m' ∧ Mid I mA N ch del r q (rk s :: us) m' H kd (updQ rk s nil) := by
  have hne := mid_ne h
  obtain ⟨d, hd, kr0⟩ := h.cr
  obtain ⟨m', e, rc, f, g⟩ := assignKid_ok s none h.rc hd (fun k hk => by cases hk)
  refine ⟨m', e, ?_⟩
  obtain ⟨c, hc⟩ := rc.held h.hd
  obtain ⟨c0, h0, _, _, _, k0, _⟩ := f.cell _ c hc
  obtain ⟨c1, h1, kd0⟩ := h.cd
  rw [h1] at h0; cases h0
  obtain ⟨d', hd'⟩ := rc.held h.hr
  have kd1 : ∀ s, s ≠ q → c.kid s = (kd s).root := fun s hs => (k0 hne s).trans (kd0 s hs)
  have kr1 : ∀ z, d'.kid z = (updQ rk s nil z).root := fun z => by
    rw [g d' hd' z, updQ]
    split
    · rfl
    · exact kr0 z
  have nr : ∀ b, 0 < cntK kd b + cntK rk b + cntAll us b → b ≠ r := fun b hb e => by
    have h1 := h.cnt b; have h2 := h.one b; rw [if_pos e] at h1; omega
  have cr0 : ch r = 0 ∧ 0 < N r := by have h1 := h.cnt r; have h2 := h.one r; rw [if_pos rfl] at h1; omega
  refine ⟨rc, h.hd, h.hr, ?_, h.one, h.knil, ⟨c, hc, kd1⟩, ⟨d', hd', kr1⟩, fun s => ?_, fun z => ?_, fun u hu => ?_,
    h.fr.trans (f.mono (fun b e => by subst e; exact cr0) (fun _ h => h.elim)), fun b => ?_⟩
  · intro u hu
    rcases List.mem_cons.1 hu with e | hu
    · subst e; exact hs
    · exact h.hu u hu
  · by_cases e : s = q
    · rw [e, h.knil]; exact ⟨trivial, trivial⟩
    · have al : ∀ b, (kd s).root = some b → ∃ c, m'.cell b = some c := fun b hb => rc.kid hc (q := s) (by rw [kd1 s e]; exact hb)
      exact ⟨(h.shd s).1.frame f rc (fun b hb => nr b (by have := cnt_le kd s b; omega)) (fun _ _ => id) al, (h.shd s).2.frame f (fun _ _ => id) al⟩
  · by_cases e : z = s
    · subst e; rw [updQ_same]; exact ⟨trivial, trivial⟩
    · have al : ∀ b, (updQ rk s nil z).root = some b → ∃ c, m'.cell b = some c := fun b hb => rc.kid hd' (q := z) (by rw [kr1 z]; exact hb)
      rw [updQ_ne _ _ e] at al ⊢
      exact ⟨(h.shr z).1.frame f rc (fun b hb => nr b (by have := cnt_le rk z b; omega)) (fun _ _ => id) al, (h.shr z).2.frame f (fun _ _ => id) al⟩
  · rcases List.mem_cons.1 hu with e | hu
    · subst e
      exact (h.shr s).1.frame f rc (fun b hb => nr b (by have := cnt_le rk s b; omega)) (fun _ _ => id) (fun b hb => rc.held (hs b hb))
    · exact (h.shs u hu).frame f rc (fun b hb => nr b (by have := cnt_le_cntAll hu b; omega)) (fun _ _ => id) (fun b hb => rc.held (h.hu u hu b hb))
  · have h1 := h.cnt b; have h2 := cntK_upd rk s nil b
    simp only [AT.cnt] at h2
    simp only [cntAll]; omega

/-- The flag of the root. -/
def AT.setOk (b : Bool) : AT V → AT V
  | nil => nil
  | node a x y d _ kids => node a x y d b kids

theorem AT.setOk_tree (b : Bool) (t : AT V) : (t.setOk b).tree = t.tree.setOk b := by cases t <;> rfl
theorem AT.setOk_root (b : Bool) (t : AT V) : (t.setOk b).root = t.root := by cases t <;> rfl
theorem AT.setOk_cnt (b : Bool) (t : AT V) (a : Nat) : (t.setOk b).cnt a = t.cnt a := by cases t <;> rfl
theorem AT.setOk_sh {I : Nat → Prop} {m : Mem V} (b : Bool) {t : AT V} (h : Sh I m t) : Sh I m (t.setOk b) := by cases t <;> exact h

theorem setChild_mk (x y : Int) (d : V) (ok : Bool) (k : Quadrant → Tree V) (s : Quadrant) (c : Tree V) :
    (mk x y d ok k).setChild s c = mk x y d ok (updQ k s c) := by cases s <;> rfl

theorem child_mk (x y : Int) (d : V) (ok : Bool) (k : Quadrant → Tree V) (s : Quadrant) : (mk x y d ok k).child s = k s := by cases s <;> rfl

theorem updQ_comm {α : Type} (k : Quadrant → α) {s t : Quadrant} (h : s ≠ t) (a b : α) : updQ (updQ k s a) t b = updQ (updQ k t b) s a := by
  funext z; simp only [updQ]
  by_cases h1 : z = t
  · subst h1; simp [Ne.symm h]
  · simp [h1]

set_option maxHeartbeats 1000000 in
/-- A loose tree goes below a quadrant of `del`. -/
theorem mid_put {u : AT V} (h : Mid I mA N ch del r q (u :: us) m H kd rk) (s : Quadrant) (hs : s ≠ q) (x y : Int) (d : V) (ok : Bool) (Q : Tree V) :
    Ref (reinsertAtH del s u.root m) (reinsertTreeAt (mk x y d ok (updQ (fun z => (kd z).tree) q Q)) s u.tree) fun m' T => ∃ kd',
      T = mk x y d ok (updQ (fun z => (kd' z).tree) q Q) ∧ Mid I mA N ch del r q us m' H kd' rk := by
  have hne := mid_ne h
  have hu : ∀ u ∈ us, ∀ b, u.root = some b → 0 < H b := fun v hv => h.hu v (List.mem_cons_of_mem _ hv)
  cases hur : u.root with
  | none =>
    have e := root_none hur
    subst e
    refine ⟨m, rfl, kd, rfl, h.rc, h.hd, h.hr, hu, h.one, h.knil, h.cd, h.cr, h.shd, h.shr, fun v hv => h.shs v (List.mem_cons_of_mem _ hv), h.fr, fun b => ?_⟩
    have := h.cnt b
    simp only [cntAll, AT.cnt] at this
    omega
  | some k =>
    have huk : 0 < H k := h.hu u (List.mem_cons_self ..) k hur
    obtain ⟨c, hc, kd0⟩ := h.cd
    simp only [reinsertAtH, get_eq hc, obind_ok, kd0 s hs]
    have hut : u.tree ≠ .nil := fun e => by rw [tree_nil] at e; subst e; cases hur
    have pure1 : reinsertTreeAt (mk x y d ok (updQ (fun z => (kd z).tree) q Q)) s u.tree = match (kd s).tree with
        | .nil => .ok (mk x y d ok (updQ (updQ (fun z => (kd z).tree) q Q) s (u.tree.setOk true)))
        | c => (reinsertTree c u.tree).bind fun c' => .ok (mk x y d ok (updQ (updQ (fun z => (kd z).tree) q Q) s c')) := by
      unfold reinsertTreeAt
      split
      · next e => exact absurd e hut
      · rw [child_mk, updQ_ne _ _ hs]
        split
        · next e => rw [setChild_mk, e]
        · next e => simp only [setChild_mk]; rfl
    rw [pure1]
    -- disjointness
    have cn : ∀ b, (if b = del then 1 else 0) + (if b = r then 1 else 0) + ch b + cntK kd b + cntK rk b + (u.cnt b + cntAll us b) ≤ 1 := fun b => by
      have h1 := h.cnt b; have h2 := h.one b; simp only [cntAll] at h1; omega
    have cnN : ∀ b, (if b = del then 1 else 0) + (if b = r then 1 else 0) + ch b + cntK kd b + cntK rk b + (u.cnt b + cntAll us b) = N b := fun b => by
      have h1 := h.cnt b; simp only [cntAll] at h1; omega
    have shu : Sh I m u := h.shs u (List.mem_cons_self ..)
    have hudel : u.cnt del = 0 ∧ cntK kd del = 0 ∧ ch del = 0 ∧ 0 < N del := by have h1 := cn del; have h2 := cnN del; rw [if_pos rfl] at h1 h2; omega
    have hur0 : u.cnt r = 0 ∧ cntK kd r = 0 := by have h1 := cn r; rw [if_pos rfl] at h1; omega
    -- the general step: only nodes of `u`, the subtree at `s` and perhaps the pointer of `del` change
    have step : ∀ {m' : Mem V} {w : AT V}, RC m' H → Fr m m' (fun b => b = del ∨ 0 < (kd s).cnt b + u.cnt b) (fun b => 0 < u.cnt b) →
        (∀ c', m'.cell del = some c' → ∀ z, z ≠ q → c'.kid z = if z = s then w.root else (kd z).root) →
        Sh I m' w → Lk I m' (some del) w → (∀ b, w.cnt b = (kd s).cnt b + u.cnt b) →
        Mid I mA N ch del r q us m' H (updQ kd s w) rk := by
      intro m' w rc f g shw lkw cw
      obtain ⟨c', hc'⟩ := rc.held h.hd
      obtain ⟨d', hd'⟩ := rc.held h.hr
      obtain ⟨d1, i1, kr0⟩ := h.cr
      obtain ⟨d0, i0, _, _, _, l0, _⟩ := f.cell _ d' hd'
      rw [i1] at i0; cases i0
      have kr1 : ∀ z, d'.kid z = (rk z).root := fun z => (l0 (fun h => by
        rcases h with h | h
        · exact hne h.symm
        · have := cnt_le kd s r; omega) z).trans (kr0 z)
      have kd1 : ∀ z, z ≠ q → c'.kid z = (updQ kd s w z).root := fun z hz => by
        rw [g c' hc' z hz, updQ]
        split <;> rfl
      refine ⟨rc, h.hd, h.hr, hu, h.one, by rw [updQ_ne _ _ (Ne.symm hs)]; exact h.knil, ⟨c', hc', kd1⟩, ⟨d', hd', kr1⟩, fun z => ?_, fun z => ?_, fun v hv => ?_,
        h.fr.trans (f.mono ?_ ?_), fun b => ?_⟩
      · by_cases e : z = s
        · subst e; rw [updQ_same]; exact ⟨shw, lkw⟩
        · rw [updQ_ne _ _ e]
          by_cases e' : z = q
          · rw [e', h.knil]; exact ⟨trivial, trivial⟩
          · have al : ∀ b, (kd z).root = some b → ∃ c, m'.cell b = some c := fun b hb => rc.kid hc' (q := z) (by rw [kd1 z e', updQ_ne _ _ e]; exact hb)
            have n1 : ∀ b, 0 < (kd z).cnt b → ¬ (b = del ∨ 0 < (kd s).cnt b + u.cnt b) := fun b hb h' => by
              have h1 := cnt_le2 kd e b; have h2 := cn b
              rcases h' with h' | h'
              · rw [if_pos h'] at h2; omega
              · omega
            have n2 : ∀ b, 0 < (kd z).cnt b → ¬ 0 < u.cnt b := fun b hb h' => n1 b hb (.inr (by omega))
            exact ⟨(h.shd z).1.frame f rc n1 n2 al, (h.shd z).2.frame f (fun b hb => n2 b (root_pos hb)) al⟩
      · have al : ∀ b, (rk z).root = some b → ∃ c, m'.cell b = some c := fun b hb => rc.kid hd' (q := z) (by rw [kr1 z]; exact hb)
        have n1 : ∀ b, 0 < (rk z).cnt b → ¬ (b = del ∨ 0 < (kd s).cnt b + u.cnt b) := fun b hb h' => by
          have h1 := cnt_le kd s b; have h2 := cn b; have h3 := cnt_le rk z b
          rcases h' with h' | h'
          · rw [if_pos h'] at h2; omega
          · omega
        have n2 : ∀ b, 0 < (rk z).cnt b → ¬ 0 < u.cnt b := fun b hb h' => n1 b hb (.inr (by omega))
        exact ⟨(h.shr z).1.frame f rc n1 n2 al, (h.shr z).2.frame f (fun b hb => n2 b (root_pos hb)) al⟩
      · have n1 : ∀ b, 0 < v.cnt b → ¬ (b = del ∨ 0 < (kd s).cnt b + u.cnt b) := fun b hb h' => by
          have h1 := cnt_le kd s b; have h2 := cn b; have h3 := cnt_le_cntAll hv b
          rcases h' with h' | h'
          · rw [if_pos h'] at h2; omega
          · omega
        exact (h.shs v (List.mem_cons_of_mem _ hv)).frame f rc n1 (fun b hb h' => n1 b hb (.inr (by omega))) (fun b hb => rc.held (hu v hv b hb))
      · intro b hb
        rcases hb with e | hb
        · subst e; exact ⟨hudel.2.2.1, hudel.2.2.2⟩
        · have h1 := cnt_le kd s b; have h2 := cn b; have h3 := cnN b; omega
      · intro b hb
        have h2 := cn b; have h3 := cnN b
        refine ⟨by omega, fun e => ?_, fun e => ?_, by omega⟩
        · rw [if_pos e] at h2; omega
        · rw [if_pos e] at h2; omega
      · have h1 := cntK_upd kd s w b; have h2 := cnN b; have h3 := cw b; omega
    cases hks : kd s with
    | nil =>
      dsimp only [root]
      obtain ⟨ck, hck⟩ := h.rc.held huk
      obtain ⟨m1, e1, rc1, f1, g1⟩ := assignKid_ok s (some k) h.rc hc (fun z hz => by cases hz; exact ⟨ck, hck⟩)
      obtain ⟨ck1, hck1⟩ := rc1.held huk
      obtain ⟨cd1, hcd1⟩ := rc1.held h.hd
      obtain ⟨m2, e2, rc2, f2, g2⟩ := assignPar_ok (some del) rc1 hck1 (fun z hz => by cases hz; exact ⟨cd1, hcd1⟩)
      have hk := root_pos hur
      have hkd : k ≠ del := fun e => by subst e; omega
      have fr : Fr m m2 (· = del) (· = k) := (f1.mono (fun _ h => h) (fun _ h => h.elim)).trans (f2.mono (fun _ h => h.elim) (fun _ h => h))
      obtain ⟨ck2, hck2⟩ := rc2.held huk
      -- the loose tree, its root now below `del`
      have sh2 : Sh I m2 (u.setOk true) ∧ Lk I m2 (some del) (u.setOk true) := by
        cases u with
        | nil => cases hur
        | node a ux uy ud uok uk =>
          cases hur
          obtain ⟨⟨cu, hcu, hx, hy, hdd, hkid⟩, hkk⟩ := shu
          obtain ⟨cz, hz, x2, y2, d2, k2, _⟩ := fr.cell k ck2 hck2
          rw [hcu] at hz; cases hz
          have k2 := k2 hkd
          refine ⟨⟨⟨ck2, hck2, x2.trans hx, y2.trans hy, d2.trans hdd, fun z => (k2 z).trans (hkid z)⟩, fun z => ?_⟩, ⟨ck2, hck2, fun _ => g2 ck2 hck2, fun h => by cases h⟩⟩
          have al : ∀ b, (uk z).root = some b → ∃ c, m2.cell b = some c := fun b hb => rc2.kid hck2 (q := z) (by rw [k2 z, hkid z]; exact hb)
          have n1 : ∀ b, 0 < (uk z).cnt b → b ≠ del := fun b hb e => by
            subst e; have h1 := cnt_le uk z b; have h2 := hudel.1; rw [cnt_node] at h2; omega
          have n2 : ∀ b, 0 < (uk z).cnt b → b ≠ k := fun b hb e => by
            subst e; have h1 := cnt_le uk z b; have h2 := cn b; rw [cnt_node, if_pos rfl] at h2; omega
          exact ⟨(hkk z).1.frame fr rc2 n1 n2 al, (hkk z).2.frame fr (fun b hb => n2 b (root_pos hb)) al⟩
      refine ⟨m2, by simp only [e1, obind_ok, e2], updQ kd s (u.setOk true), ?_, step rc2 ?_ ?_ sh2.1 sh2.2 ?_⟩
      · rw [updQ_map, AT.setOk_tree, updQ_comm _ hs]
      · exact fr.mono (fun b h => .inl h) (fun b e => by subst e; exact hk)
      · intro c' hc' z hz
        obtain ⟨c1, h1, _, _, _, k1, _⟩ := f2.cell del c' hc'
        rw [k1 id z, g1 c1 h1 z, AT.setOk_root, hur]
        split
        · rfl
        · exact kd0 z hz
      · intro b
        rw [AT.setOk_cnt, hks]; simp [AT.cnt]
    | node kk kx ky kdd kok kkids =>
      rw [← hks]
      have hroot : (kd s).root = some kk := by rw [hks]; rfl
      have htree : (kd s).tree ≠ .nil := fun e => by rw [tree_nil, hks] at e; cases e
      rw [hroot]
      dsimp only
      split
      · next e => exact absurd e htree
      · rw [show reinsertH (m.next + 1) kk k m = (reinsertH (m.next + 1) kk k m).bind .ok by cases reinsertH (m.next + 1) kk k m <;> rfl]
        have hd1 : ∀ b, (kd s).cnt b + u.cnt b ≤ 1 := fun b => by have h1 := cn b; have h2 := cnt_le kd s b; omega
        refine Ref.bind (reinsert_spec I u (m.next + 1) (shu.depth_le h.rc (fun b => by have := hd1 b; omega)) kk k (kd s) m H h.rc (h.shd s).1 hroot shu hur hd1
          (.kid s (.held h.hd) (by have h1 := cnt_le kd s del; omega) hc ((kd0 s hs).trans hroot)) (.held huk)) ?_
        rintro m' T ⟨D', R⟩
        obtain ⟨cd', hcd'⟩ := R.rc.held h.hd
        obtain ⟨c0, h0, _, _, _, k0, _⟩ := R.fr.cell del cd' hcd'
        rw [hc] at h0; cases h0
        have k1 := k0 (by have h1 := cnt_le kd s del; omega)
        refine ⟨m', rfl, updQ kd s D', ?_, step R.rc (R.fr.mono (fun b h => .inr h) (fun _ h => h)) ?_ R.sh ?_ R.cnt⟩
        · rw [updQ_map, R.tree, updQ_comm _ hs]
        · intro c' hc' z hz
          rw [hcd'] at hc'; cases hc'
          rw [k1 z]
          split
          · next e => rw [e, kd0 s hs, hroot, R.root]
          · exact kd0 z hz
        · have al : ∃ c, m'.cell kk = some c := R.rc.kid hcd' (q := s) (by rw [k1 s, kd0 s hs, hroot])
          have := (h.shd s).2.frame R.fr (fun b hb => by have h1 := hd1 b; have h2 := root_pos hb; omega) (fun b hb => by rw [hroot] at hb; cases hb; exact al)
          exact R.lk _ _ _ this

end Mdds.Quad
