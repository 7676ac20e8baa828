import Verif.Quad.HeapRemove
import Verif.Quad.Remove3
/-!
The model of `remove` never gets to its undefined cases, for any tree built by the library's calls.
-/
namespace Mdds.Quad

variable {V : Type}

/-- Defined, and the result (if any) has the property. -/
def Def {α : Type} (o : Outcome α) (P : α → Prop) : Prop :=
  match o with
  | .ok a => P a
  | .err _ => True
  | .ub => False

theorem Def.bind {α β : Type} {o : Outcome α} {f : α → Outcome β} {P : α → Prop} {Q : β → Prop} (h : Def o P) (hf : ∀ a, P a → Def (f a) Q) : Def (o.bind f) Q := by
  cases o with
  | ok a => exact hf a h
  | err e => trivial
  | ub => exact h.elim

theorem Def.ne {α : Type} {o : Outcome α} {P : α → Prop} (h : Def o P) : o ≠ .ub := by
  rintro rfl; exact h

theorem adjustQuad_def (xr yr : Int × Int) (dir : Dir) (t : Tree V) : Def (adjustQuad xr yr dir t) fun _ => True := by
  induction t with
  | nil => trivial
  | node x y d ok ne nw se sw i1 i2 i3 i4 =>
    unfold adjustQuad
    split
    · split <;> trivial
    · cases dir <;> exact Def.bind (by assumption) fun _ _ => Def.bind (by assumption) fun _ _ => trivial

theorem setNewRoot_def (xr yr : Int × Int) (dir : Quadrant) (t : Tree V) : Def (setNewRoot xr yr dir t) fun _ => True := by
  induction t with
  | nil => trivial
  | node x y d ok ne nw se sw i1 i2 i3 i4 =>
    unfold setNewRoot
    cases dir <;> exact Def.bind (adjustQuad_def ..) fun _ _ => Def.bind (adjustQuad_def ..) fun _ _ => Def.bind (by assumption) fun _ _ => trivial

theorem insertNode_def (p : Pt V) {t : Tree V} (h : t ≠ .nil) : Def (insertNode p t) (· ≠ .nil) := by
  induction t with
  | nil => exact absurd rfl h
  | node x y d ok ne nw se sw i1 i2 i3 i4 =>
    have e : Tree.node x y d ok ne nw se sw = mk x y d ok fun q => (Tree.node x y d ok ne nw se sw).child q := rfl
    rw [e, insertNode_mk]
    split
    · trivial
    · have i : ∀ q, (Tree.node x y d ok ne nw se sw).child q ≠ .nil → Def (insertNode p ((Tree.node x y d ok ne nw se sw).child q)) (· ≠ .nil) := by
        intro q hq
        cases q
        · exact i1 hq
        · exact i2 hq
        · exact i3 hq
        · exact i4 hq
      generalize getQuadrant x y p.x p.y = q
      have i := i q
      revert i
      generalize (Tree.node x y d ok ne nw se sw).child q = c
      intro i
      cases c with
      | nil => exact fun h => nomatch h
      | node => exact Def.bind (i (fun h => nomatch h)) fun _ _ h => nomatch h

theorem reinsertTree_def (u : Tree V) : ∀ {D : Tree V}, D ≠ .nil → Def (reinsertTree D u) (· ≠ .nil) := by
  induction u with
  | nil => intro D h; exact h
  | node x y d ok ne nw se sw i1 i2 i3 i4 =>
    intro D h
    exact Def.bind (i1 h) fun _ h => Def.bind (i2 h) fun _ h => Def.bind (i3 h) fun _ h => Def.bind (i4 h) fun _ h => insertNode_def _ h

theorem setChild_ne {t : Tree V} (q : Quadrant) (c : Tree V) (h : t ≠ .nil) : t.setChild q c ≠ .nil := by
  cases t with
  | nil => exact absurd rfl h
  | node => cases q <;> exact fun h => nomatch h

theorem reinsertTreeAt_def (q : Quadrant) (u : Tree V) {D : Tree V} (h : D ≠ .nil) : Def (reinsertTreeAt D q u) (· ≠ .nil) := by
  unfold reinsertTreeAt
  split
  · exact h
  · split
    · exact setChild_ne _ _ h
    · next hc => exact Def.bind (reinsertTree_def _ hc) fun _ _ => setChild_ne _ _ h

theorem reinsertList_def (l : List (Tree V)) : ∀ {D : Tree V}, D ≠ .nil → Def (reinsertList D l) fun _ => True := by
  induction l with
  | nil => intro D h; trivial
  | cons u l ih => intro D h; exact Def.bind (reinsertTree_def _ h) fun _ h => ih h

theorem overwrite_ne (p : Pt V) {t : Tree V} (h : t ≠ .nil) : t.overwrite p ≠ .nil := by
  cases t with
  | nil => exact absurd rfl h
  | node => exact fun h => nomatch h

theorem removeInner_def {x y : Int} {d : V} {ok : Bool} {k : Quadrant → Tree V} (w : WF (mk x y d ok k)) : Def (removeInner (mk x y d ok k)) fun _ => True := by
  cases hq : findReplacement x y (mk x y d ok k) with
  | none =>
    unfold mk at hq ⊢
    unfold removeInner
    dsimp only
    rw [hq]; trivial
  | some q =>
    have hch : (mk x y d ok k).child q = k q := by cases q <;> rfl
    have hne := findReplacement_child hq
    rw [hch] at hne
    obtain ⟨c1, c2, c3, c4⟩ := chainEnd_facts (opposite q) (k q)
    cases hc : chainEnd (opposite q) (k q) with
    | nil => exact absurd hc (c1 hne)
    | node rx ry rd rok r1 r2 r3 r4 =>
      have hp : getQuadrant x y rx ry = q := by
        have h1 := c3 ⟨rx, ry, rd⟩
        rw [hc] at h1
        have h2 : (⟨rx, ry, rd⟩ : Pt V) ∈ allData (k q) := by
          rw [mem_iff_cnt]
          refine Nat.lt_of_lt_of_le ?_ h1
          rw [← mem_iff_cnt]; exact List.mem_cons_self
        rw [← hch] at h2
        exact (placed_child w q h2).1
      have hmk : Tree.node rx ry rd rok r1 r2 r3 r4 = mk rx ry rd rok fun s => (Tree.node rx ry rd rok r1 r2 r3 r4).child s := rfl
      rw [removeInner_mk hq (hc.trans hmk) hp]
      refine Def.bind (P := fun _ => True) (Def.bind (adjustQuad_def ..) fun _ _ => Def.bind (adjustQuad_def ..) fun _ _ => Def.bind (setNewRoot_def ..) fun _ _ => trivial) fun s _ => ?_
      refine Def.bind (P := (· ≠ .nil)) (Def.bind (reinsertTreeAt_def _ _ (fun h => nomatch h)) fun _ h => reinsertTreeAt_def _ _ h) fun D h => ?_
      exact reinsertList_def _ (setChild_ne _ _ (overwrite_ne _ h))

theorem removeFrom_def (px py : Int) {t : Tree V} (w : WF t) : ∀ {top : Bool}, Def (removeFrom px py top t) fun _ => True := by
  induction t with
  | nil => intro top; trivial
  | node x y d ok ne nw se sw i1 i2 i3 i4 =>
    intro top
    have e : Tree.node x y d ok ne nw se sw = mk x y d ok fun q => (Tree.node x y d ok ne nw se sw).child q := rfl
    rw [e, removeFrom_mk]
    split
    · split
      · split <;> trivial
      · exact removeInner_def w
    · refine Def.bind (P := fun _ => True) ?_ fun _ _ => trivial
      obtain ⟨_, _, _, _, w1, w2, w3, w4⟩ := w
      cases getQuadrant x y px py
      · exact i1 w1
      · exact i2 w2
      · exact i3 w3
      · exact i4 w4

/-- `remove` returns or throws. -/
theorem removePt_ne_ub {t : Tree V} (w : WF t) (x y : Int) : removePt t x y ≠ .ub := (removeFrom_def x y w).ne

end Mdds.Quad
