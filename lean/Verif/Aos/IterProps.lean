import Verif.Aos.Iter
import Verif.Aos.Exact
import Verif.Mtv.IterProps

/-!
# multi_type_vector, array of structures: iterator objects behave as in the other layout (C74)
-/

namespace Mdds.Aos.Iter
open Mdds Mdds.Mtv Mdds.Mtv.Iter

variable {α : Type}

/-- The iterator of the structure-of-arrays layout with the same position. -/
def AIt.soa (x : AIt) : It := ⟨x.rev, x.const, x.node, x.arr, .all x.pos, .all x.end_⟩

theorem all_inj {i j : Nat} : Cur.all i = Cur.all j ↔ i = j := by simp [Cur.all]

theorem look_map {τ σ : Type} (f : τ → σ) (rev : Bool) (l : List τ) (i : Nat) : look rev (l.map f) i = (look rev l i).map f := by
  unfold look; cases rev <;> simp; split <;> simp

theorem update_soa {s t : St α} (h : s.blocks = t.blocks) (x : AIt) : It.update t x.soa = (x.update s).map AIt.soa := by
  unfold It.update AIt.update
  simp only [AIt.soa, Cur.all, look_map, ← h]
  cases look x.rev s.blocks x.pos with
  | none => rfl
  | some b => cases hb : b.data <;> simp [hb, AIt.soa, Cur.all]

theorem make_soa {s t : St α} (h : s.blocks = t.blocks) (rev const : Bool) (p : Option Nat) (i a pos e : Nat) :
    It.make t rev const p i a (.all pos) (.all e) = (AIt.make s rev const p i a pos e).map AIt.soa := by
  unfold It.make AIt.make
  by_cases hp : pos = e
  · simp [hp, AIt.soa]
  · simp only [all_inj, hp, if_false, ne_eq, not_false_eq_true, if_true]
    exact update_soa h ⟨rev, const, Node.mk0 p i, some a, pos, e⟩

theorem curInc_soa (rev : Bool) (n i : Nat) : (Cur.all i).inc rev n = (stepUp rev n i).map Cur.all := by
  unfold Cur.inc Cur.all
  cases stepUp rev n i <;> rfl

theorem curDec_soa (rev : Bool) (n i : Nat) : (Cur.all i).dec rev n = (stepDown rev n i).map Cur.all := by
  unfold Cur.dec Cur.all
  cases stepDown rev n i <;> rfl

theorem inc_soa {s t : St α} (h : s.blocks = t.blocks) (x : AIt) : x.soa.inc t = (x.inc s).map AIt.soa := by
  unfold It.inc AIt.inc
  simp only [AIt.soa, curInc_soa, ← h]
  cases stepUp x.rev s.blocks.length x.pos with
  | none => rfl
  | some k =>
    simp only [Option.map_some, Option.bind_eq_bind, Option.bind_some, all_inj]
    split
    · rfl
    · exact update_soa h { x with node := _, pos := k }

theorem dec_soa {s t : St α} (h : s.blocks = t.blocks) (x : AIt) : x.soa.dec t = (x.dec s).map AIt.soa := by
  unfold It.dec AIt.dec
  simp only [AIt.soa, curDec_soa, ← h]
  cases stepDown x.rev s.blocks.length x.pos with
  | none => rfl
  | some k =>
    have := update_soa h { x with pos := k }
    simp only [AIt.soa] at this
    simp only [Option.map_some, Option.bind_eq_bind, Option.bind_some, this]
    cases AIt.update s { x with pos := k } <;> rfl

theorem eq_soa (x y : AIt) : x.soa.eq y.soa = x.eq y := by
  unfold It.eq AIt.eq
  simp [AIt.soa, all_inj]

theorem toConst_soa {s t : St α} (h : s.blocks = t.blocks) (x : AIt) : x.soa.toConst t = (x.toConst s).map AIt.soa := by
  unfold It.toConst AIt.toConst
  cases hx : x.arr with
  | none => simp [AIt.soa, hx]
  | some a => simp only [AIt.soa, hx]; exact make_soa h _ _ _ _ _ _ _

theorem makeBegin_soa {s t : St α} (h : s.blocks = t.blocks) (rev const : Bool) (c a : Nat) :
    Mtv.Iter.makeBegin t rev const c a = (makeBegin s rev const c a).map AIt.soa := by
  unfold Mtv.Iter.makeBegin makeBegin
  cases rev <;> simp only [Bool.false_eq_true, if_false, if_true, ← h] <;> exact make_soa h _ _ _ _ _ _ _

theorem makeEnd_soa {s t : St α} (h : s.blocks = t.blocks) (rev const : Bool) (c a : Nat) :
    Mtv.Iter.makeEnd t rev const c a = (makeEnd s rev const c a).map AIt.soa := by
  unfold Mtv.Iter.makeEnd makeEnd
  cases rev <;> simp only [Bool.false_eq_true, if_false, if_true, ← h] <;> exact make_soa h _ _ _ _ _ _ _

theorem getIterator_soa {s t : St α} (h : s.blocks = t.blocks) (const : Bool) (c a i : Nat) :
    Mtv.Iter.getIterator t const c a i = (getIterator s const c a i).map AIt.soa := by
  unfold Mtv.Iter.getIterator getIterator
  simp only [← h]
  split
  · exact make_soa h _ _ _ _ _ _ _
  · rfl

/-! ### Worlds -/

/-- Stores that are both absent or alike. -/
def AlikeOpt : Option (St α) → Option (St α) → Prop
  | some s, some t => Alike s t
  | none, none => True
  | _, _ => False

/-- The two layouts after the same program. -/
structure Same (w : AWorld α) (v : World α) : Prop where
  stores : ∀ a, AlikeOpt (w.stores a) (v.stores a)
  ctrs : v.ctrs = w.ctrs
  its : ∀ i, v.its i = (w.its i).map AIt.soa
  next : v.next = w.next

/-- The two layouts answer alike. -/
def SameOut {τ : Type} : Outcome (AWorld α × τ) → Outcome (World α × τ) → Prop
  | .ok p, .ok q => p.2 = q.2 ∧ Same p.1 q.1
  | .err e, .err e' => e = e'
  | .ub, .ub => True
  | _, _ => False

theorem same_empty : Same (α := α) AWorld.empty World.empty := ⟨fun _ => trivial, rfl, fun _ => rfl, rfl⟩

theorem alike_put {f g : Nat → Option (St α)} (h : ∀ a, AlikeOpt (f a) (g a)) (i : Nat) {x y : Option (St α)} (hx : AlikeOpt x y) :
    ∀ a, AlikeOpt (put f i x a) (put g i y a) := by
  intro a; unfold put; split
  · exact hx
  · exact h a

theorem its_put {f : Nat → Option AIt} {g : Nat → Option It} (h : ∀ i, g i = (f i).map AIt.soa) (i : Nat) (x : AIt) :
    ∀ j, put g i (some x.soa) j = (put f i (some x) j).map AIt.soa := by
  intro j; unfold put; split
  · rfl
  · exact h j

theorem Same.setIt {w : AWorld α} {v : World α} (h : Same w v) (i : Nat) (x : AIt) :
    Same { w with its := put w.its i (some x) } { v with its := put v.its i (some x.soa) } :=
  ⟨h.stores, h.ctrs, its_put h.its i x, h.next⟩

theorem husk_alike {s t : St α} (h : Alike s t) : Alike (husk s) (husk t) := ⟨rfl, h.2.1, rfl, h.2.2.2.1, rfl⟩

/-- A store seen from both. -/
theorem Same.store {w : AWorld α} {v : World α} (h : Same w v) (c : Nat) :
    (w.store c = none ∧ v.store c = none) ∨ ∃ a s t, w.store c = some (a, s) ∧ v.store c = some (a, t) ∧ Alike s t := by
  unfold AWorld.store World.store
  rw [h.ctrs]
  cases w.ctrs c with
  | none => exact .inl ⟨rfl, rfl⟩
  | some a =>
    have := h.stores a
    cases hs : w.stores a <;> cases ht : v.stores a <;> simp only [hs, ht, AlikeOpt] at this
    · exact .inl (by simp [hs, ht])
    · exact .inr ⟨a, _, _, by simp [hs], by simp [ht], this⟩

theorem Same.arrays {w : AWorld α} {v : World α} (h : Same w v) (x : AIt) :
    (w.arrays x = none ∧ v.arrays x.soa = none) ∨ ∃ s t, w.arrays x = some s ∧ v.arrays x.soa = some t ∧ Alike s t := by
  unfold AWorld.arrays World.arrays AIt.soa
  cases x.arr with
  | none => exact .inl ⟨rfl, rfl⟩
  | some a =>
    have := h.stores a
    cases hs : w.stores a <;> cases ht : v.stores a <;> simp only [hs, ht, AlikeOpt] at this
    · exact .inl (by simp [hs, ht])
    · exact .inr ⟨_, _, by simp only [Option.bind_some, hs], by simp only [Option.bind_some, ht], this⟩

theorem Same.hint {w : AWorld α} {v : World α} (h : Same w v) (c : Nat) (o : Option Nat) : v.hint c o = w.hint c o := by
  cases o with
  | none => rfl
  | some i => simp only [World.hint, AWorld.hint, h.its, Option.map_map]; rfl

theorem Same.keep {w : AWorld α} {v : World α} (h : Same w v) {s t : St α} (hb : s.blocks = t.blocks) (const : Bool) (c a : Nat)
    (i k : Option Nat) :
    (w.keep s const c a i k = none ∧ v.keep t const c a i k = none) ∨
      ∃ w' v', w.keep s const c a i k = some w' ∧ v.keep t const c a i k = some v' ∧ Same w' v' := by
  cases i <;> cases k <;> try exact .inr ⟨_, _, rfl, rfl, h⟩
  rename_i i k
  simp only [AWorld.keep, World.keep, getIterator_soa hb]
  cases getIterator s const c a k with
  | none => exact .inl ⟨rfl, rfl⟩
  | some x => exact .inr ⟨_, _, rfl, rfl, h.setIt i x⟩

theorem inPlace_alike {s t : St α} (h : s.blocks = t.blocks) (f : Call α) : inPlace t f = inPlace s f := by
  have hc : contents t = contents s := by unfold contents; rw [h]
  cases f <;> try rfl
  · simp only [inPlace]; rw [hc]
  · simp only [inPlace]; rw [h]

theorem Same.commit {w : AWorld α} {v : World α} (h : Same w v) (c a : Nat) (b : Bool) {s t : St α} (hs : Alike s t) :
    Same (w.commit c a b s).1 (v.commit c a b t).1 ∧ (v.commit c a b t).2 = (w.commit c a b s).2 := by
  unfold AWorld.commit World.commit
  cases b
  · simp only [Bool.false_eq_true, if_false, h.next, h.ctrs]
    exact ⟨⟨alike_put (alike_put h.stores a (x := none) (y := none) trivial) _ hs, rfl, h.its, rfl⟩, trivial⟩
  · exact ⟨⟨alike_put h.stores a hs, h.ctrs, h.its, h.next⟩, rfl⟩

theorem same_call {w : AWorld α} {v : World α} (h : Same w v) (c : Nat) (f : Call α) (hint ret : Option Nat) :
    SameOut (w.doCall c f hint ret) (v.doCall c f hint ret) := by
  unfold AWorld.doCall World.doCall
  rw [h.hint]
  rcases h.store c with ⟨h1, h2⟩ | ⟨a, s, t, h1, h2, hst⟩
  · simp only [h1, h2, SameOut]
  · simp only [h1, h2]
    cases w.hint c hint with
    | none => trivial
    | some o =>
      have hr := callRun_agree (f.withAt o) s t hst
      simp only [inPlace_alike hst.1]
      cases hs : callRun (f.withAt o) s <;> cases ht : (f.withAt o).run t <;>
        simp only [hs, ht, AlikeRes] at hr <;> simp only [SameOut]
      · rename_i p q
        obtain ⟨r, s'⟩ := p
        obtain ⟨r', t'⟩ := q
        obtain ⟨hr1, hr2⟩ := hr
        simp only at hr1 hr2
        subst hr1
        obtain ⟨k1, k2⟩ := h.commit c a (inPlace s f) hr2
        simp only [k2]
        rcases k1.keep hr2.1 false c (w.commit c a (inPlace s f) s').2 ret r.idx with ⟨e1, e2⟩ | ⟨w', v', e1, e2, e3⟩
        · simp only [e1, e2]
        · simp only [e1, e2, true_and]; exact e3
      · obtain ⟨rfl, hr2⟩ := hr
        exact ⟨rfl, alike_put h.stores a hr2, h.ctrs, h.its, h.next⟩

theorem same_both {w : AWorld α} {v : World α} (h : Same w v) (c d a b : Nat) (ret : Option Nat) {β : Type} (f : β → Option Nat)
    {x y : Res2 α β} (hr : AlikeRes2 x y) : SameOut (w.both c d a b ret (x.map f)) (v.both c d a b ret (y.map f)) := by
  rcases x with ⟨r, s, t⟩ | ⟨e, s, t⟩ | - <;> rcases y with ⟨r', s', t'⟩ | ⟨e', s', t'⟩ | - <;> simp only [AlikeRes2] at hr
  · obtain ⟨rfl, hs, ht⟩ := hr
    obtain ⟨k1, k2⟩ := h.commit c a false hs
    obtain ⟨k3, -⟩ := k1.commit d b false ht
    simp only [Res2.map, AWorld.both, World.both, k2]
    rcases k3.keep hs.1 false c (w.commit c a false s).2 ret (f r) with ⟨e1, e2⟩ | ⟨w', v', e1, e2, e3⟩
    · rw [e1, e2]; trivial
    · rw [e1, e2]; exact ⟨rfl, e3⟩
  · obtain ⟨rfl, hs, ht⟩ := hr
    exact ⟨rfl, alike_put (alike_put h.stores a (x := some s) (y := some s') hs) b (x := some t) (y := some t') ht, h.ctrs, h.its, h.next⟩
  · trivial

/-- Every command does the same to both layouts, defined or not. -/
theorem same_step {w : AWorld α} {v : World α} (h : Same w v) (c : Cmd α) : SameOut (w.step c) (v.step c) := by
  cases c with
  | make c k =>
    simp only [AWorld.step, World.step, ctorRun_eq, h.ctrs, h.next]
    cases w.ctrs c <;> cases k.run <;> simp only [SameOut, true_and]
    · exact ⟨alike_put h.stores _ (Alike.refl _), rfl, h.its, rfl⟩
    · exact h
  | destroy c =>
    simp only [AWorld.step, World.step]
    rcases h.store c with ⟨h1, h2⟩ | ⟨a, s, t, h1, h2, hst⟩ <;> simp only [h1, h2, SameOut, true_and]
    exact ⟨alike_put h.stores _ (x := none) (y := none) trivial, by simp only [h.ctrs], h.its, h.next⟩
  | swap c d =>
    simp only [AWorld.step, World.step, h.ctrs]
    cases w.ctrs c <;> cases w.ctrs d <;> simp only [SameOut, true_and]
    exact ⟨h.stores, rfl, h.its, h.next⟩
  | moveNew c d =>
    simp only [AWorld.step, World.step, h.ctrs]
    rcases h.store d with ⟨h1, h2⟩ | ⟨a, s, t, h1, h2, hst⟩ <;> cases w.ctrs c <;> simp only [h1, h2, SameOut, true_and, h.next]
    exact ⟨alike_put h.stores _ (husk_alike hst), rfl, h.its, rfl⟩
  | moveTo c d =>
    simp only [AWorld.step, World.step]
    rcases h.store c with ⟨h1, h2⟩ | ⟨a, s, t, h1, h2, hst⟩
    · simp only [h1, h2, SameOut]
    · rcases h.store d with ⟨k1, k2⟩ | ⟨b, s', t', k1, k2, hst'⟩
      · simp only [h1, h2, k1, k2, SameOut]
      · simp only [h1, h2, k1, k2]
        split
        · exact ⟨rfl, h⟩
        · exact ⟨rfl, by simp only [h.next]; exact alike_put (alike_put h.stores _ (x := none) (y := none) trivial) _ (husk_alike hst'),
            by simp only [h.ctrs, h.next], h.its, by simp only [h.next]⟩
  | call c f hint ret => exact same_call h c f hint ret
  | transfer c d first last dest hint ret =>
    simp only [AWorld.step, World.step, h.hint, transfer_eq]
    by_cases hcd : c = d
    · simp only [if_pos hcd, SameOut]
    · simp only [if_neg hcd]
      rcases h.store c with ⟨h1, h2⟩ | ⟨a, s, t, h1, h2, hst⟩
      · simp only [h1, h2, SameOut]
      · rcases h.store d with ⟨k1, k2⟩ | ⟨b, s', t', k1, k2, hst'⟩
        · simp only [h1, h2, k1, k2, SameOut]
        · simp only [h1, h2, k1, k2]
          cases w.hint c hint with
          | none => trivial
          | some o => exact same_both h c d a b ret some ((transfer_blind false o first last dest).agree s s' t t' hst hst')
  | swapRange c d first last dest =>
    simp only [AWorld.step, World.step, swapRange_eq]
    by_cases hcd : c = d
    · simp only [if_pos hcd, SameOut]
    · simp only [if_neg hcd]
      rcases h.store c with ⟨h1, h2⟩ | ⟨a, s, t, h1, h2, hst⟩
      · simp only [h1, h2, SameOut]
      · rcases h.store d with ⟨k1, k2⟩ | ⟨b, s', t', k1, k2, hst'⟩
        · simp only [h1, h2, k1, k2, SameOut]
        · simp only [h1, h2, k1, k2]
          exact same_both h c d a b none _ ((swapRange_blind first last dest).agree s s' t t' hst hst')
  | position c const pos hint ret =>
    simp only [AWorld.step, World.step, h.hint, position_eq]
    rcases h.store c with ⟨h1, h2⟩ | ⟨a, s, t, h1, h2, hst⟩
    · simp only [h1, h2, SameOut]
    · simp only [h1, h2]
      cases w.hint c hint with
      | none => trivial
      | some o =>
        have hr := (position_blind o pos).agree s t hst
        cases hs : Mtv.position o pos s <;> cases ht : Mtv.position o pos t <;>
          simp only [hs, ht, AlikeRes] at hr <;> simp only [hs, ht, SameOut]
        · rename_i p q
          obtain ⟨r, s'⟩ := p
          obtain ⟨r', t'⟩ := q
          obtain ⟨hr1, hr2⟩ := hr
          simp only at hr1 hr2
          subst hr1
          rcases h.keep hst.1 const c a (some ret) (some r.1) with ⟨e1, e2⟩ | ⟨w', v', e1, e2, e3⟩
          · simp only [e1, e2]
          · simp only [e1, e2, true_and]; exact e3
        · exact ⟨by rw [hr.1], h⟩
  | begin_ c rev const i =>
    simp only [AWorld.step, World.step]
    rcases h.store c with ⟨h1, h2⟩ | ⟨a, s, t, h1, h2, hst⟩ <;> simp only [h1, h2, SameOut]
    simp only [makeBegin_soa hst.1]
    cases makeBegin s rev const c a <;> simp only [Option.map_none, Option.map_some, true_and]
    exact h.setIt _ _
  | end_ c rev const i =>
    simp only [AWorld.step, World.step]
    rcases h.store c with ⟨h1, h2⟩ | ⟨a, s, t, h1, h2, hst⟩ <;> simp only [h1, h2, SameOut]
    simp only [makeEnd_soa hst.1]
    cases makeEnd s rev const c a <;> simp only [Option.map_none, Option.map_some, true_and]
    exact h.setIt _ _
  | fresh rev const i => exact ⟨rfl, h.setIt i _⟩
  | copy i j =>
    simp only [AWorld.step, World.step, h.its j]
    cases w.its j <;> simp only [Option.map_none, Option.map_some, SameOut, true_and]
    exact h.setIt _ _
  | convert i j =>
    simp only [AWorld.step, World.step, h.its j]
    cases w.its j with
    | none => trivial
    | some x =>
      simp only [Option.map_some]
      rcases h.arrays x with ⟨h1, h2⟩ | ⟨s, t, h1, h2, hst⟩ <;> simp only [h1, h2, SameOut]
      simp only [toConst_soa hst.1]
      cases x.toConst s <;> simp only [Option.map_none, Option.map_some]
      cases hc : x.const <;> simp only [AIt.soa, hc, Bool.false_eq_true, if_false, if_true, true_and]
      exact h.setIt _ _
  | swapIt i j =>
    simp only [AWorld.step, World.step, h.its i, h.its j]
    cases w.its i <;> cases w.its j <;> simp only [Option.map_none, Option.map_some, SameOut]
    rename_i x y
    by_cases hc : x.rev = y.rev ∧ x.const = y.const
    · rw [if_pos hc, if_pos (show x.soa.rev = y.soa.rev ∧ x.soa.const = y.soa.const from hc)]
      exact ⟨rfl, h.stores, h.ctrs, its_put (its_put h.its i y) j x, h.next⟩
    · rw [if_neg hc, if_neg (show ¬(x.soa.rev = y.soa.rev ∧ x.soa.const = y.soa.const) from hc)]
      trivial
  | inc i =>
    simp only [AWorld.step, World.step, h.its i]
    cases w.its i with
    | none => trivial
    | some x =>
      simp only [Option.map_some]
      rcases h.arrays x with ⟨h1, h2⟩ | ⟨s, t, h1, h2, hst⟩ <;> simp only [h1, h2, SameOut]
      simp only [inc_soa hst.1]
      cases x.inc s <;> simp only [Option.map_none, Option.map_some, true_and]
      exact h.setIt _ _
  | dec i =>
    simp only [AWorld.step, World.step, h.its i]
    cases w.its i with
    | none => trivial
    | some x =>
      simp only [Option.map_some]
      rcases h.arrays x with ⟨h1, h2⟩ | ⟨s, t, h1, h2, hst⟩ <;> simp only [h1, h2, SameOut]
      simp only [dec_soa hst.1]
      cases x.dec s <;> simp only [Option.map_none, Option.map_some, true_and]
      exact h.setIt _ _
  | deref i =>
    simp only [AWorld.step, World.step, h.its i]
    cases w.its i with
    | none => trivial
    | some x => exact ⟨rfl, h⟩
  | equal i j =>
    simp only [AWorld.step, World.step, h.its i, h.its j]
    cases w.its i <;> cases w.its j <;> simp only [Option.map_none, Option.map_some, SameOut]
    rename_i x y
    have ha : (v.arrays x.soa).isSome = (w.arrays x).isSome := by
      rcases h.arrays x with ⟨h1, h2⟩ | ⟨s, t, h1, h2, hst⟩ <;> simp [h1, h2]
    simp only [ha, eq_soa]
    by_cases hc : x.rev = y.rev ∧ x.const = y.const ∧ x.arr = y.arr ∧ (w.arrays x).isSome = true
    · rw [if_pos hc, if_pos (show x.soa.rev = y.soa.rev ∧ x.soa.const = y.soa.const ∧ x.soa.arr = y.soa.arr ∧ _ from hc)]
      exact ⟨rfl, h⟩
    · rw [if_neg hc, if_neg (show ¬(x.soa.rev = y.soa.rev ∧ x.soa.const = y.soa.const ∧ x.soa.arr = y.soa.arr ∧ _) from hc)]
      trivial
  | next i off =>
    simp only [AWorld.step, World.step, h.its i]
    cases w.its i with
    | none => trivial
    | some x =>
      simp only [Option.map_some]
      have e1 : x.soa.rev = x.rev := rfl
      have e2 : x.soa.node = x.node := rfl
      simp only [e1, e2]
      split
      · trivial
      split
      · exact ⟨rfl, h⟩
      rcases h.arrays x with ⟨h1, h2⟩ | ⟨s, t, h1, h2, hst⟩ <;> simp only [h1, h2, SameOut]
      simp only [inc_soa hst.1]
      cases x.inc s <;> simp only [Option.map_none, Option.map_some, true_and]
      exact h.setIt _ _
  | logical i off =>
    simp only [AWorld.step, World.step, h.its i]
    cases w.its i with
    | none => trivial
    | some x =>
      simp only [Option.map_some]
      have e1 : x.soa.rev = x.rev := rfl
      have e2 : x.soa.node = x.node := rfl
      simp only [e1, e2]
      split
      · trivial
      · exact ⟨rfl, h⟩

theorem same_run (cs : List (Cmd α)) : ∀ {w : AWorld α} {v : World α}, Same w v → SameOut (w.run cs) (v.run cs) := by
  induction cs with
  | nil => intro w v h; exact ⟨rfl, h⟩
  | cons c cs ih =>
    intro w v h
    have h1 := same_step h c
    simp only [AWorld.run, World.run]
    cases e1 : w.step c <;> cases e2 : v.step c <;> simp only [e1, e2, SameOut] at h1 <;> simp only [SameOut]
    · rename_i p q
      obtain ⟨w', x⟩ := p
      obtain ⟨v', y⟩ := q
      obtain ⟨hx, h2⟩ := h1
      simp only at hx h2
      subst hx
      have h3 := ih h2
      simp only
      cases e3 : w'.run cs <;> cases e4 : v'.run cs <;> simp only [e3, e4, SameOut] at h3 <;> simp only
      · exact ⟨by rw [h3.1], h3.2⟩
      · exact h3
    · exact h1

/-- The answers of a run. -/
def answers : Outcome (AWorld α × List (Ans α)) → Option (List (Ans α))
  | .ok r => some r.2
  | _ => none

/-- Iterators of the two layouts behave the same in every program over containers and kept iterators,
legal or not: the same answers, the same exceptions, undefined behaviour in the same programs. -/
theorem C74_layouts (cs : List (Cmd α)) : answers (AWorld.empty.run cs) = Mtv.Iter.answers (World.empty.run cs) := by
  have h := same_run cs (same_empty (α := α))
  cases e1 : (AWorld.empty (α := α)).run cs <;> cases e2 : (World.empty (α := α)).run cs <;>
    simp only [e1, e2, SameOut] at h <;> simp only [answers, Mtv.Iter.answers]
  rw [h.1]

/-- Every legal program over containers of the array-of-structures layout and kept iterators runs
without undefined behaviour and answers as the specification says. -/
theorem C74_aos_programs_partial [DecidableEq α] (cs : List (Cmd α)) (h : SWorld.empty.LegalAll cs) :
    answers (AWorld.empty.run cs) = some (SWorld.empty.run cs).2 := by
  rw [C74_layouts, C74_programs_partial cs h]

/-- Two walking iterators, a copy and a comparison in the array-of-structures layout. -/
example : (SWorld.empty (α := Nat)).LegalAll showTwo ∧
    answers (AWorld.empty.run showTwo) = Mtv.Iter.answers (World.empty.run showTwo) ∧
    ((answers (AWorld.empty.run showTwo)).map List.length) = some showTwo.length :=
  ⟨showTwo_legal, C74_layouts _, by decide +kernel⟩

/-- An iterator kept over a reallocating `push_back` is undefined when it is moved, in both layouts. -/
example : answers (AWorld.empty.run (build ++ [.begin_ 0 false false 1, .call 0 (.pushBack tS 1) none none, .inc 1])) = none :=
  by decide +kernel

end Mdds.Aos.Iter
