import Verif.Quad.HeapInner3
/-!
`remove` of a node with children in the heap.
-/
namespace Mdds.Quad

open AT

variable {V : Type}

theorem quad_cases (q z : Quadrant) : z = q ∨ z = (adjacent q).1.1 ∨ z = (adjacent q).2.1 ∨ z = opposite q := by cases q <;> cases z <;> decide

theorem sides_adjacent (q : Quadrant) : (sides q).1 = (adjacent q).1.1 ∧ (sides q).2 = (adjacent q).2.1 := by cases q <;> decide

theorem last_sh {I : Nat → Prop} {m : Mem V} {q : Quadrant} {t : AT V} (h : Sh I m t) : Sh I m (t.last q) := by
  induction t with
  | nil => exact h
  | node a' x' y' d' ok' kk ih =>
    by_cases e : kk q = nil
    · rw [last_stop e]; exact h
    · rw [last_step e]; exact ih _ (h.2 _).1

set_option maxHeartbeats 1000000 in
theorem removeInnerH_any {I : Nat → Prop} {m : Mem V} {H : Nat → Nat} {del : Nat} {x y : Int} {d : V} {ok : Bool} {kids : Quadrant → AT V}
    (hrc : RC m H) (hH : 0 < H del) (hcl : Clean I m) (hsh : Sh I m (node del x y d ok kids)) (hd : ∀ b, (node del x y d ok kids).cnt b ≤ 1)
    (hI : ∀ b, 0 < (node del x y d ok kids).cnt b → I b) :
    Ref (removeInnerH del m) (removeInner (node del x y d ok kids).tree) fun m' T => ∃ t' I', Gone I m H del (node del x y d ok kids).cnt m' T t' I' := by
  obtain ⟨c, hc, hx, hy, hdd, hkid⟩ := hsh.1
  obtain ⟨o, eo, ho⟩ := replacement_spec hrc hsh hd
  rw [removeInnerH_eq]
  simp only [get_eq hc, obind_ok, hx, hy, eo]
  cases hf : findReplacement x y (node del x y d ok kids).tree with
  | none =>
    rw [hf] at ho
    cases ho
    have : removeInner (node del x y d ok kids).tree = .err .general := by
      show removeInner (mk x y d ok fun q => (kids q).tree) = _
      have hf' : findReplacement x y (mk x y d ok fun q => (kids q).tree) = none := hf
      unfold mk at hf' ⊢
      unfold removeInner
      dsimp only
      rw [hf']
    rw [this]
    rfl
  | some q =>
    rw [hf] at ho
    obtain ⟨r, rfl, hlr⟩ := ho
    dsimp only
    have hdk : ∀ b, (kids q).cnt b ≤ 1 := fun b => by have h1 := cnt_le kids q b; have h2 := hd b; rw [cnt_node] at h2; omega
    cases hL : (kids q).last (opposite q) with
    | nil => rw [hL] at hlr; cases hlr
    | node r' rx ry rd rok rk0 =>
      rw [hL] at hlr
      cases hlr
      have hshL : Sh I m (node r rx ry rd rok rk0) := by rw [← hL]; exact last_sh (hsh.2 q).1
      obtain ⟨cr, hcr, hrx, hry, hrd, _⟩ := hshL.1
      obtain ⟨m1, e1, rc1, f1, l1⟩ := addRef_ok (some r) hrc (fun k hk => by cases hk; exact ⟨cr, hcr⟩)
      obtain ⟨cr1, hcr1⟩ := l1 r cr hcr
      obtain ⟨cz, hz, x1, y1, d1, _, _⟩ := f1.cell r cr1 hcr1
      rw [hcr] at hz; cases hz
      have x1 := x1.trans hrx; have y1 := y1.trans hry; have d1 := d1.trans hrd
      obtain ⟨cd1, hcd1⟩ := l1 del c hc
      have hcE : chainEnd (opposite q) (kids q).tree = mk rx ry rd rok fun z => (rk0 z).tree := by rw [← last_tree, hL]; rfl
      simp only [e1, obind_ok, get_eq hcr1, x1, y1]
      show Ref _ (removeInner (mk x y d ok fun q => (kids q).tree)) _
      by_cases hq : getQuadrant x y rx ry = q
      · rw [removeInner_mk hf hcE hq, hq]
        have sh1 : Sh I m1 (node del x y d ok kids) := hsh.frame f1 rc1 (fun _ _ => id) (fun _ _ => id) (fun a ha => by cases ha; exact ⟨cd1, hcd1⟩)
        have hcl1 : Clean I m1 := hcl.frame f1 (fun _ h => h.elim)
        have hH1 : 0 < hold H (some r) del := Nat.lt_of_lt_of_le hH (hold_le _ _ _)
        refine Ref.bind (cut_spec q (ordered x rx) (ordered y ry) rc1 hcl1 sh1 hd hI hH1) ?_
        rintro ⟨as, mA⟩ ⟨⟨p1, u1⟩, ⟨p2, u2⟩, ⟨p3, u3⟩⟩ ⟨kd, us, C⟩
        obtain ⟨cads, ct1, ct2, ct3, copp, ctrees, crc, cfr, csh, cshs, ccnt, clast⟩ := C
        dsimp only at cads ct1 ct2 ct3 copp ctrees crc cfr csh cshs ccnt clast ⊢
        subst ct1 ct2 ct3
        rw [hL] at clast
        cases hLA : (kd q).last (opposite q) with
        | nil => rw [hLA] at clast; cases clast
        | node r' ax ay ad aok rk =>
          rw [hLA] at clast
          cases clast
          obtain ⟨ch, L⟩ := lost (csh.2 q).1 (csh.2 q).2 hLA
          have hcA : chainEnd (opposite q) (kd q).tree = mk ax ay ad aok fun z => (rk z).tree := by rw [← last_tree, hLA]; rfl
          rw [hcA, ctrees]
          simp only [child_mk]
          have hclA : Clean I mA := hcl1.frame cfr (fun b hb => hI b hb)
          obtain ⟨cA, b0, hcA', hpA, hb0⟩ := L.par
          obtain ⟨cz, hz, x2, y2, d2, _, _⟩ := cfr.cell r cA hcA'
          rw [hcr1] at hz; cases hz
          have x2 := x2.trans x1; have y2 := y2.trans y1; have d2 := d2.trans d1
          obtain ⟨⟨cdA, hcdA, _, _, _, kdA⟩, kkA⟩ := csh
          obtain ⟨⟨crA, hcrA, _, _, _, krA⟩, kkR⟩ := L.sh
          have M : Mid I mA (node del x y d ok kids).cnt ch del r q us mA (holds (hold H (some r)) as) (updQ kd q nil) rk := by
            refine ⟨crc, Nat.lt_of_lt_of_le hH1 (holds_le _ _ _), Nat.lt_of_lt_of_le (by rw [hold_self]; omega) (holds_le _ as r), fun u hu b hb => ?_, hd, updQ_same ..,
              ⟨cdA, hcdA, fun s hs => by rw [kdA s, updQ_ne _ _ hs]⟩, ⟨crA, hcrA, krA⟩, fun s => ?_, kkR, cshs, .refl .., fun b => ?_⟩
            · have := List.count_pos_iff.2 (root_mem cads hu hb)
              simp only [holds]; omega
            · by_cases e : s = q
              · subst e; rw [updQ_same]; exact ⟨trivial, trivial⟩
              · rw [updQ_ne _ _ e]; exact kkA s
            · have h1 := ccnt b; have h2 := L.cnt b; have h3 := cntK_upd kd q nil b
              simp only [AT.cnt] at h3
              rw [cnt_node] at h1; omega
          have hD : mk x y d ok (updQ (updQ (fun q => (kids q).tree) (adjacent q).1.1 (kd (adjacent q).1.1).tree) (adjacent q).2.1 (kd (adjacent q).2.1).tree) =
              mk x y d ok (updQ (fun z => (updQ kd q nil z).tree) q (kids q).tree) := by
            congr 1
            obtain ⟨n1, n2, n3⟩ := adjacent_ne q
            obtain ⟨o1, o2, o3⟩ := opposite_ne q
            funext z
            rcases quad_cases q z with e | e | e | e
            · subst e; rw [updQ_same, updQ_ne _ _ (Ne.symm n3), updQ_ne _ _ (Ne.symm n2)]
            · rw [e, updQ_ne _ _ n1, updQ_same, updQ_ne _ _ n2, updQ_ne _ _ n2]
            · rw [e, updQ_same, updQ_ne _ _ n3, updQ_ne _ _ n3]
            · rw [e, updQ_ne _ _ o3, updQ_ne _ _ o2, updQ_ne _ _ o1, updQ_ne _ _ o1, copp]
          rw [hD]
          refine Ref.bind (move_spec M x y d ok (kids q).tree) ?_
          rintro m2 T ⟨kd2, rfl, M2⟩
          obtain ⟨s12, s1q, s2q⟩ := sides_ne q
          have hrkq : updQ (updQ rk (sides q).1 nil) (sides q).2 nil q = rk q := by rw [updQ_ne _ _ (Ne.symm s2q), updQ_ne _ _ (Ne.symm s1q)]
          have hrk : ∀ s, s ≠ q → updQ (updQ rk (sides q).1 nil) (sides q).2 nil s = nil := fun s hs => by
            obtain ⟨a1, a2⟩ := sides_adjacent q
            rcases quad_cases q s with e | e | e | e
            · exact absurd e hs
            · rw [e, ← a1, updQ_ne _ _ s12, updQ_same]
            · rw [e, ← a2, updQ_same]
            · rw [updQ, updQ]
              split
              · rfl
              · split
                · rfl
                · rw [e]; exact L.stop
          have Fin := finish_spec (x := x) (y := y) (d := d) (ok := ok) (Q := (kids q).tree) M2 hH cads hrk hcA' hpA hb0 hclA hI L.kids
          rw [x2, y2, d2, hrkq] at Fin
          refine Fin.mono ?_
          rintro m3 T ⟨t', I', G⟩
          obtain ⟨g1, g2, g3, g4, g5, g6, g7, g8, g9⟩ := G
          exact ⟨t', I', g1, g2, g3, ((f1.widen _ _).toFd.trans (cfr.toFd.mono (fun _ h => h) (fun b h => by rw [cnt_node]; omega))).trans g4, g5, g6, g7, g8, g9⟩
      · have : removeInner (mk x y d ok fun q => (kids q).tree) = .ub := by
          have hf' : findReplacement x y (mk x y d ok fun q => (kids q).tree) = some q := hf
          have hch := child_mk x y d ok (fun q => (kids q).tree) q
          unfold mk at hf' hch ⊢
          unfold removeInner
          dsimp only
          rw [hf']
          dsimp only
          rw [hch, hcE]
          unfold mk
          dsimp only
          rw [if_pos hq]
        rw [this]
        trivial

end Mdds.Quad
