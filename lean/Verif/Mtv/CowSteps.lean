import Verif.Mtv.CowOk
import Verif.Mtv.PairProps
/-!
# multi_type_vector: histories of copies, moves and calls
-/

namespace Mdds.Mtv.Cow

set_option linter.unusedSectionVars false
set_option linter.unusedVariables false

variable {α : Type} [DecidableEq α] {T : Traits} {w : World α} {S : Items α}

/-- The step does what the specification says. -/
def Agrees (T : Traits) (o : Out α) (r : Items α × Option Err) : Prop :=
  match o with
  | .ok w' => r.2 = none ∧ Inv T w' r.1
  | .err e w' => r.2 = some e ∧ Inv T w' r.1
  | .ub => False

theorem agrees_ok {o : Out α} {w' : World α} {S' : Items α} (h : o = .ok w') (I : Inv T w' S') : Agrees T o (S', none) := by
  subst h; exact ⟨rfl, I⟩

theorem agrees_err {o : Out α} {e : Err} {w' : World α} {S' : Items α} (h : o = .err e w') (I : Inv T w' S') :
    Agrees T o (S', some e) := by
  subst h; exact ⟨rfl, I⟩

theorem ne_ne : ∀ t : Option Ty, NE t → t ≠ none := fun _ h => h

theorem runOwned_ok (I : Inv T w S) {i : Nat} {L : List (Cell α)} (h : S.at i = some (.live L false)) (c : Call α)
    (hd : c.Defined L) :
    Agrees T (runOwned i c.run w) (match c.spec L with
      | some L' => (S.set i (some (.live L' false)), none)
      | none => (S.set i (some (.live L false)), some .outOfRange)) := by
  obtain ⟨k, bs, hk, sh, hL, hm⟩ := I.live h
  have ho : k.holder = none := by
    rcases hh : k.holder with _ | x
    · rfl
    · rw [hh] at hm; cases hm
  obtain ⟨hw, hb, hc⟩ := sh.wf w.next
  rw [hL] at hc
  have hload : (w.get i).bind (load w) = some ⟨bs, k.cur, [], k.evs, w.next⟩ := by
    rw [hk]; simp [load, sh.load]
  have heff := call_eff ne_ne hw c (by rw [hc]; exact hd) (Or.inl fun t => by simp)
  rw [hc] at heff
  cases hs : c.spec L with
  | none =>
    rw [hs] at heff
    obtain ⟨w', e1, I1⟩ := storeBack_ok I hk ho hw hb
    refine agrees_err (w' := w') ?_ (by rw [← hL]; exact I1)
    simp only [runOwned, hload, heff, e1, Out.bind]
  | some L' =>
    rw [hs] at heff
    obtain ⟨r, s', e, E, -⟩ := heff
    have hb' : Bal s' := by
      have := E.evn
      unfold Bal at *
      dsimp only at *
      omega
    obtain ⟨w', e1, I1⟩ := storeBack_ok I hk ho E.wf hb'
    rw [E.cells] at I1
    refine agrees_ok (w' := w') ?_ I1
    simp only [runOwned, hload, e, e1]

theorem early_ok (L : List (Cell α)) (c : Call α) :
    match early L.length c with
    | some none => c.spec L = some L ∧ touches L c = false
    | some (some e) => e = .outOfRange ∧ c.spec L = none ∧ touches L c = false
    | none => touches L c = true := by
  cases c with
  | setRange h pos ty vs =>
    simp only [early, touches, Call.spec]
    rcases vs with _ | ⟨v, vs⟩
    · simp
    · by_cases h1 : L.length ≤ pos + (v :: vs).length - 1
      · have : ¬ pos + (v :: vs).length ≤ L.length := by simp at h1 ⊢; omega
        simp at h1 this
        simp [h1, this]
      · have : pos + (v :: vs).length ≤ L.length := by simp at h1 ⊢; omega
        simp at h1 this
        rw [if_neg (by simp), if_neg (by simp; omega)]
        simp; omega
  | erase first last =>
    simp only [early, touches, Call.spec]
    by_cases h1 : first > last
    · simp [h1]
    · simp [h1]; omega
  | insertEmpty h pos n =>
    simp only [early, touches, Call.spec]
    by_cases h1 : n = 0 <;> simp [h1]
  | _ => rfl

theorem Agrees.set {i : Nat} {x : Option (Item α)} {o : Out α} {y : Option (Item α)} {e : Option Err}
    (h : Agrees T o ((S.set i x).set i y, e)) : Agrees T o (S.set i y, e) := by
  rwa [List.set_set] at h

theorem call_ok (I : Inv T w S) {i : Nat} {L : List (Cell α)} {m : Bool} (h : S.at i = some (.live L m)) (c : Call α)
    (hd : c.Defined L) : Agrees T (callOn T i c w) (S.set i (some (callSpec L m c).1), (callSpec L m c).2) := by
  obtain ⟨k, bs, hk, sh, hL, hm⟩ := I.live h
  have hl : i < S.length := Items.at_lt (by rw [h]; simp)
  have hlen : k.cur = L.length := by
    have := cells_length (sh.wf w.next).1
    simp only at this
    rw [← hL, this]
  have hself : Inv T w (S.set i (some (.live L m))) := set_same I h (by simp)
  have gen : c ≠ .clear → isRelease c = false → Agrees T
      (match early k.cur c with
        | some none => .ok w
        | some (some e) => .err e w
        | none => (detach T i w).bind (runOwned i c.run))
      (match c.spec L with
      | some L' => (S.set i (some (.live L' (m && !touches L c))), none)
      | none => (S.set i (some (.live L (m && !touches L c))), some .outOfRange)) := by
    intro _ _
    have he := early_ok L c
    rw [hlen]
    rcases hx : early L.length c with _ | (_ | e)
    · rw [hx] at he
      dsimp only at he ⊢
      obtain ⟨w1, e1, I1⟩ := detach_ok I h
      have := runOwned_ok I1 (i := i) (L := L) (by rw [Items.at_set _ _ _ _ hl, if_pos rfl]) c hd
      simp only [List.set_set] at this
      simp only [e1, Out.bind, he, Bool.not_true, Bool.and_false]
      exact this
    · rw [hx] at he
      dsimp only at he ⊢
      simp only [he.1, he.2, Bool.not_false, Bool.and_true]
      exact agrees_ok rfl hself
    · rw [hx] at he
      dsimp only at he ⊢
      obtain ⟨rfl, h1, h2⟩ := he
      simp only [h1, h2, Bool.not_false, Bool.and_true]
      exact agrees_err rfl hself
  have rel : isRelease c = true → touches L c = true → Agrees T (if k.holder.isSome then .err .sharedBlock w else runOwned i c.run w)
      (if m = true then (S.set i (some (.live L m)), some .sharedBlock) else
        match c.spec L with
        | some L' => (S.set i (some (.live L' (m && !touches L c))), none)
        | none => (S.set i (some (.live L (m && !touches L c))), some .outOfRange)) := by
    intro _ ht
    rw [← hm]
    cases m with
    | true => exact agrees_err rfl hself
    | false =>
      simp only [Bool.false_eq_true, if_false, ht, Bool.not_true, Bool.and_false]
      exact runOwned_ok I h c hd
  have fix : ∀ o : Option (List (Cell α)), ∀ b : Bool,
      (match o with
        | some L' => (S.set i (some (Item.live L' b)), none)
        | none => (S.set i (some (Item.live L b)), some Err.outOfRange)) =
      (S.set i (some (match o with
        | some L' => (Item.live L' b, none)
        | none => (Item.live L b, some Err.outOfRange)).1),
       (match o with
        | some L' => (Item.live L' b, none)
        | none => (Item.live L b, some Err.outOfRange)).2) := by
    intro o b; cases o <;> rfl
  cases c with
  | clear =>
    simp only [callOn, hk, callSpec]
    rcases hh : k.holder with _ | q
    · have : m = false := by rw [hm, hh]; rfl
      subst this
      have := runOwned_ok I h .clear hd
      simpa [clearOn, hk, hh, Call.spec] using this
    · have C1 := I.core.leave hk hh (y := some ⟨[], 0, k.evs ++ (addrs k.slots).map Ev.rel, none⟩) (by intro d hd; cases hd; exact ⟨rfl, rfl⟩)
      obtain ⟨w', e3, c3, g3, C4, f3⟩ := Core.drop (w := w.put i (some ⟨[], 0, k.evs ++ (addrs k.slots).map Ev.rel, none⟩)) C1
      simp only [World.put] at c3 g3 f3
      refine agrees_ok (w' := w') (by simp only [clearOn, hk, hh]; exact e3) ⟨C4, by rw [c3]; simp [I.len], ?_, by rw [g3]; exact I.logs⟩
      intro j
      unfold World.get
      rw [c3]
      refine items_set I hl ?_ ?_ j
      · intro j d hj hd a ha
        exact f3 j d (by rw [Cow.at_set _ _ _ _ (at_lt hk), if_neg (fun e => hj e.symm)]; exact hd) a ha
      · refine ⟨[], ⟨rfl, trivial, rfl, by simp [Sep], ?_⟩, rfl, rfl⟩
        have := sh.bal
        show nacq (k.evs ++ _) = nrel (k.evs ++ _) + 0
        rw [nacq_append, nrel_append, nacq_map_rel, nrel_map_rel]
        omega
  | release h' pos ty =>
    have := rel rfl rfl
    simp only [callOn, hk, callSpec, isRelease, if_true, true_and]
    cases m with
    | true => exact this
    | false =>
      simp only [Bool.false_eq_true, if_false] at this ⊢
      rw [fix] at this
      exact this
  | releaseRange h' a e =>
    have := rel rfl rfl
    simp only [callOn, hk, callSpec, isRelease, if_true, true_and]
    cases m with
    | true => exact this
    | false =>
      simp only [Bool.false_eq_true, if_false] at this ⊢
      rw [fix] at this
      exact this
  | releaseAll =>
    have := rel rfl rfl
    simp only [callOn, hk, callSpec, isRelease, if_true, true_and]
    cases m with
    | true => exact this
    | false =>
      simp only [Bool.false_eq_true, if_false] at this ⊢
      rw [fix] at this
      exact this
  | _ =>
    have := gen (by simp) rfl
    simp only [callOn, hk, callSpec, isRelease, Bool.false_eq_true, if_false, false_and]
    rw [fix] at this
    exact this

/-! ### Two containers -/

theorem Inv.owner (I : Inv T w S) {i : Nat} {L : List (Cell α)} (h : S.at i = some (.live L false)) :
    ∃ c bs, w.get i = some c ∧ c.holder = none ∧ Shows w.heap c bs ∧ cells bs = L := by
  obtain ⟨c, bs, h1, h2, h3, h4⟩ := I.live h
  refine ⟨c, bs, h1, ?_, h2, h3⟩
  rcases hh : c.holder with _ | x
  · rfl
  · rw [hh] at h4; cases h4

theorem detach2_ok (I : Inv T w S) {i j : Nat} (hij : i ≠ j) {L K : List (Cell α)} {m n : Bool}
    (hi : S.at i = some (.live L m)) (hj : S.at j = some (.live K n)) :
    ∃ w', (detach T i w).bind (detach T j) = .ok w' ∧
      Inv T w' ((S.set i (some (.live L false))).set j (some (.live K false))) := by
  obtain ⟨w1, e1, I1⟩ := detach_ok I hi
  have li := Items.at_lt (S := S) (i := i) (by rw [hi]; simp)
  obtain ⟨w2, e2, I2⟩ := detach_ok I1 (i := j) (L := K) (m := n) (by rw [Items.at_set _ _ _ _ li, if_neg hij]; exact hj)
  exact ⟨w2, by simp only [e1, Out.bind, e2], I2⟩

theorem storeBack2_ok (I : Inv T w S) {i j : Nat} (hij : i ≠ j) {L K : List (Cell α)}
    (hi : S.at i = some (.live L false)) (hj : S.at j = some (.live K false)) {s' t' : St α}
    (hs : WF NE s') (ht : WF NE t') (hbs : Bal s') (hbt : Bal t') :
    ∃ w', (storeBack i s' w).bind (storeBack j t') = .ok w' ∧
      Inv T w' ((S.set i (some (.live (cells s'.blocks) false))).set j (some (.live (cells t'.blocks) false))) := by
  obtain ⟨c, bs, hc, ho, -, -⟩ := I.owner hi
  have li := Items.at_lt (S := S) (i := i) (by rw [hi]; simp)
  obtain ⟨w1, e1, I1⟩ := storeBack_ok I hc ho hs hbs
  obtain ⟨d, bs', hd, ho', -, -⟩ := I1.owner (i := j) (L := K) (by rw [Items.at_set _ _ _ _ li, if_neg hij]; exact hj)
  obtain ⟨w2, e2, I2⟩ := storeBack_ok I1 hd ho' ht hbt
  exact ⟨w2, by simp only [e1, Out.bind, e2], I2⟩

/-- A call on two containers that own their blocks. -/
theorem runOwned2_ok {β : Type} (I : Inv T w S) {i j : Nat} (hij : i ≠ j) {L K : List (Cell α)}
    (hi : S.at i = some (.live L false)) (hj : S.at j = some (.live K false)) (m : M2 α β) {o : Option (Pair α)}
    {lp ep : Prop}
    (hm : ∀ s t : St α, WF NE s → WF NE t → contents s = L → contents t = K →
      match o with
      | some p => Runs2 (m s t) fun _ s' t' => Eff2 NE lp ep s t s' t' p [] []
      | none => m s t = .err .outOfRange s t) :
    Agrees T (runOwned2 i j m w) (match (generalizing := false) o with
      | some p => ((S.set i (some (.live p.1 false))).set j (some (.live p.2 false)), none)
      | none => ((S.set i (some (.live L false))).set j (some (.live K false)), some .outOfRange)) := by
  obtain ⟨c, bs, hc, hoc, shc, hL⟩ := I.owner hi
  obtain ⟨d, cs, hd, hod, shd, hK⟩ := I.owner hj
  obtain ⟨hws, hbs, hcs⟩ := shc.wf w.next
  obtain ⟨hwt, hbt, hct⟩ := shd.wf w.next
  have l1 : (w.get i).bind (load w) = some ⟨bs, c.cur, [], c.evs, w.next⟩ := by
    rw [hc]; simp [load, shc.load]
  have l2 : (w.get j).bind (load w) = some ⟨cs, d.cur, [], d.evs, w.next⟩ := by
    rw [hd]; simp [load, shd.load]
  have := hm _ _ hws hwt (by rw [hcs, hL]) (by rw [hct, hK])
  cases o with
  | none =>
    dsimp only at this ⊢
    obtain ⟨w', e1, I1⟩ := storeBack2_ok I hij hi hj hws hwt hbs hbt
    refine agrees_err (w' := w') ?_ (by rw [hL, hK] at I1; exact I1)
    simp only [runOwned2, l1, l2, this, e1]
    rfl
  | some p =>
    dsimp only at this ⊢
    obtain ⟨r, s', t', e, E⟩ := this
    obtain ⟨b1, b2⟩ := E.evn hbs hbt
    obtain ⟨w', e1, I1⟩ := storeBack2_ok I hij hi hj E.wfs E.wft b1 b2
    rw [← contents_eq, ← contents_eq, E.left, E.right] at I1
    refine agrees_ok (w' := w') ?_ I1
    simp only [runOwned2, l1, l2, e, e1]

theorem set2 (S : Items α) {i j : Nat} (hij : i ≠ j) (a b c d : Option (Item α)) :
    (((S.set i a).set j b).set i c).set j d = (S.set i c).set j d := by
  rw [List.set_comm _ _ (fun e => hij e.symm), List.set_set, List.set_set]

theorem copyCtor_ok (I : Inv T w S) {i : Nat} {L : List (Cell α)} {m : Bool} (h : S.at i = some (.live L m)) :
    Agrees T (copyCtor T i w) (if allOf T.copyable L then
        (S.set i (some (.live L (m || T.cow))) ++ [some (.live L T.cow)], none) else (S, some .elementBlock)) := by
  obtain ⟨c, bs, hc, sh, hL, hm⟩ := I.live h
  have hT : allTypes T.copyable bs = allOf T.copyable L := by rw [types_cells sh.tile, hL]
  by_cases hcp : allOf T.copyable L = true
  · rw [if_pos hcp]
    cases hcow : T.cow with
    | true =>
      have hcl : allOf T.clonable L = true := by
        simp only [allOf, List.all_eq_true] at hcp ⊢
        exact fun v hv => T.clone_copy _ (hcp v hv)
      obtain ⟨w', e1, I1⟩ := borrow_ok I h hcl
      refine agrees_ok (w' := w') ?_ (by simpa using I1)
      simp only [copyCtor, hc, sh.load, hT, hcp, hcow, if_true, e1]
    | false =>
      have I1 := pushOwned_ok (evs := fun l => l.map Ev.acq) (set_same I h (by simp)) sh.tile sh.cur sh.sep
        (fun l _ => by rw [nacq_map_acq, nrel_map_acq]; omega)
      rw [hL] at I1
      refine agrees_ok ?_ (by simpa using I1)
      simp only [copyCtor, hc, sh.load, hT, hcp, hcow, if_true, Bool.false_eq_true, if_false]
  · rw [if_neg hcp]
    refine agrees_err ?_ I
    simp only [copyCtor, hc, sh.load, hT, hcp, Bool.false_eq_true, if_false]

theorem bind_agrees {o : Out α} {f : World α → Out α} {S' : Items α} {r : Items α × Option Err} (h : Agrees T o (S', none))
    (hf : ∀ w', Inv T w' S' → Agrees T (f w') r) : Agrees T (o.bind f) r := by
  cases o with
  | ok w' => exact hf w' h.2
  | err e w' => exact absurd h.1 (by simp)
  | ub => exact h.elim

theorem bind_agrees_err {o : Out α} {f : World α → Out α} {S' : Items α} {e : Err} (h : Agrees T o (S', some e)) :
    Agrees T (o.bind f) (S', some e) := by
  cases o with
  | ok w' => exact absurd h.1 (by simp)
  | err e' w' => exact h
  | ub => exact h.elim

/-- Every defined step does what the specification says. -/
theorem step_ok (I : Inv T w S) (c : Step α) (hd : c.Defined T S) : Agrees T (c.run T w) (c.spec T S) := by
  cases c with
  | construct k =>
    have := C28_construct k
    simp only [Step.run, Step.spec]
    cases hk : k.spec with
    | none =>
      rw [hk] at this
      exact agrees_err (by simp only [construct, this]) I
    | some L =>
      rw [hk] at this
      obtain ⟨s, e, hL⟩ := this
      have hw := ctor_wf k e
      have hb := ctor_count k e
      have I1 := pushOwned_ok (evs := fun _ => s.evs) I hw.tile hw.cur (hw.sep.imp fun a b h e => (h e).elim)
        (fun l hl => by rw [hl]; exact hb)
      rw [← contents_eq, hL] at I1
      exact agrees_ok (by simp only [construct, e]) I1
  | copy i =>
    obtain ⟨L, m, h⟩ := hd
    simp only [Step.run, Step.spec, h]
    exact copyCtor_ok I h
  | clone i =>
    obtain ⟨L, m, h, hcl⟩ := hd
    simp only [Step.run, Step.spec, h]
    obtain ⟨c, bs, hc, sh, hL, hm⟩ := I.live h
    cases hcow : T.cow with
    | true =>
      rw [if_pos (hcl hcow)]
      obtain ⟨w', e1, I1⟩ := borrow_ok I h (hcl hcow)
      refine agrees_ok (w' := w') ?_ (by simpa using I1)
      simp only [cloneCtor, hc, hcow, if_true, e1]
    | false =>
      have hT : allTypes T.clonable bs = allOf T.clonable L := by rw [types_cells sh.tile, hL]
      by_cases hcp : allOf T.clonable L = true
      · rw [if_pos hcp]
        have I1 := pushOwned_ok (evs := fun l => l.map Ev.acq) (set_same I h (by simp)) sh.tile sh.cur sh.sep
          (fun l _ => by rw [nacq_map_acq, nrel_map_acq]; omega)
        rw [hL] at I1
        refine agrees_ok ?_ (by simpa using I1)
        simp only [cloneCtor, hc, sh.load, hT, hcp, hcow, if_true, Bool.false_eq_true, if_false]
      · rw [if_neg hcp]
        refine agrees_err ?_ I
        simp only [cloneCtor, hc, sh.load, hT, hcp, hcow, Bool.false_eq_true, if_false]
  | move i =>
    obtain ⟨L, m, h⟩ := hd
    obtain ⟨w', e, I1⟩ := moveCtor_ok I (i := i) (by rw [h]; simp)
    exact agrees_ok e I1
  | assign i j =>
    obtain ⟨hi, L, m, h⟩ := hd
    simp only [Step.run, Step.spec, h, assign]
    have hc := copyCtor_ok I h
    have lj := Items.at_lt (S := S) (i := j) (by rw [h]; simp)
    by_cases hcp : allOf T.copyable L = true
    · rw [if_pos hcp] at hc ⊢
      refine bind_agrees hc fun w1 I1 => ?_
      obtain ⟨w', e, I2⟩ := swapWithLast_ok (i := i) I1 rfl (by
        rw [Items.at_set _ _ _ _ lj]
        split
        · simp
        · exact hi) (by simp)
      refine agrees_ok ?_ I2
      rw [I.len]; simpa using e
    · rw [if_neg hcp] at hc ⊢
      exact bind_agrees_err hc
  | moveAssign i j =>
    obtain ⟨hi, L, m, h⟩ := hd
    simp only [Step.run, Step.spec, moveAssign]
    have lj := Items.at_lt (S := S) (i := j) (by rw [h]; simp)
    obtain ⟨w1, e1, I1⟩ := moveCtor_ok I (i := j) (by rw [h]; simp)
    obtain ⟨w', e, I2⟩ := swapWithLast_ok (i := i) I1 rfl (by
        rw [Items.at_set _ _ _ _ lj]
        split
        · simp
        · exact hi) (by rw [h]; simp)
    refine agrees_ok ?_ I2
    simp only [e1, Out.bind]
    rw [I.len]; simpa using e
  | swap i j =>
    obtain ⟨w', e, I1⟩ := swapCtrs_ok I hd.1 hd.2
    exact agrees_ok e I1
  | destroy i =>
    obtain ⟨w', e, I1⟩ := destroy_ok I hd
    exact agrees_ok e I1
  | call i c =>
    rcases hd with ⟨L, m, h, hd⟩ | ⟨h, rfl⟩
    · simp only [Step.run, Step.spec, h]
      exact call_ok I h c hd
    · simp only [Step.run, Step.spec, h]
      obtain ⟨k, hk⟩ := I.exi (i := i) (by rw [h]; simp)
      have hit := I.items i
      rw [hk, h] at hit
      obtain ⟨h1, h2, h3⟩ := hit
      have hload : (w.get i).bind (load w) = some ⟨[], k.cur, [], k.evs, w.next⟩ := by
        rw [hk]; simp [load, h1, loadBlocks]
      have hcl : (Call.clear : Call α).run (⟨[], k.cur, [], k.evs, w.next⟩ : St α) = .ok (.unit, ⟨[], 0, [], k.evs, w.next⟩) := by
        rfl
      obtain ⟨w', e1, I1⟩ := storeBack_ok (s' := (⟨[], 0, [], k.evs, w.next⟩ : St α)) I hk h2 ⟨trivial, rfl, by simp [Sep]⟩
        (by unfold Bal; simp [h3])
      refine agrees_ok (w' := w') ?_ I1
      have : runOwned i (Call.run (.clear : Call α)) w = .ok w' := by simp only [runOwned, hload, hcl, e1]
      simp only [callOn, hk, clearOn, h2, this]
  | detach i =>
    obtain ⟨L, m, h⟩ := hd
    simp only [Step.run, Step.spec, h]
    obtain ⟨w', e, I1⟩ := detach_ok I h
    exact agrees_ok e I1
  | transfer i j h a e d =>
    obtain ⟨L, K, m, n, hi, hj, hh⟩ := hd
    simp only [Step.run, Step.spec, transferOn]
    by_cases hij : i = j
    · rw [if_pos hij, if_pos hij]
      exact agrees_err rfl I
    · rw [if_neg hij, if_neg hij]
      simp only [hi, hj]
      have li := Items.at_lt (S := S) (i := i) (by rw [hi]; simp)
      have lj := Items.at_lt (S := S) (i := j) (by rw [hj]; simp)
      obtain ⟨w1, e1, I1⟩ := detach2_ok I hij hi hj
      have := runOwned2_ok (o := moveCells a e d L K) (lp := True) (ep := True) I1 hij (L := L) (K := K)
        (by rw [Items.at_set _ _ _ _ (by simpa using lj), if_neg (fun e => hij e.symm), Items.at_set _ _ _ _ li, if_pos rfl])
        (by rw [Items.at_set _ _ _ _ (by simpa using lj), if_pos rfl]) (Mtv.transfer false h a e d) (by
          intro s t hs ht h1 h2
          have := transfer_eff ne_ne hs ht h a e d (by rw [h1]; exact hh)
          rw [h1, h2] at this
          cases hp : moveCells a e d L K with
          | none => rw [hp] at this; exact this
          | some p =>
            rw [hp] at this
            obtain ⟨r, s', t', x1, x2, -⟩ := this
            exact ⟨r, s', t', x1, x2⟩)
      simp only [set2 S hij] at this
      rw [e1]
      exact this
  | swapRange i j a e d =>
    obtain ⟨hij, ⟨L, m, hi⟩, ⟨K, n, hj⟩⟩ := hd
    simp only [Step.run, Step.spec, hi, hj]
    obtain ⟨c, bs, hc, shc, hL, -⟩ := I.live hi
    obtain ⟨d', bs', hd', shd, hK, -⟩ := I.live hj
    have len1 : c.cur = L.length := by
      have := cells_length (shc.wf w.next).1
      simp only at this
      rw [← hL, this]
    have len2 : d'.cur = K.length := by
      have := cells_length (shd.wf w.next).1
      simp only at this
      rw [← hK, this]
    simp only [swapOn, hc, hd', len1, len2]
    by_cases hb : a ≤ e ∧ e < L.length ∧ d + (e - a + 1) ≤ K.length
    · rw [if_neg (by omega)]
      have li := Items.at_lt (S := S) (i := i) (by rw [hi]; simp)
      have lj := Items.at_lt (S := S) (i := j) (by rw [hj]; simp)
      obtain ⟨w1, e1, I1⟩ := detach2_ok I hij hi hj
      have := runOwned2_ok (o := exchangeCells a e d L K) (lp := ¬ Trapped L K a e d) (ep := True) I1 hij (L := L) (K := K)
        (by rw [Items.at_set _ _ _ _ (by simpa using lj), if_neg (fun e => hij e.symm), Items.at_set _ _ _ _ li, if_pos rfl])
        (by rw [Items.at_set _ _ _ _ (by simpa using lj), if_pos rfl]) (Mtv.swapRange a e d) (by
          intro s t hs ht h1 h2
          have := swap_eff ne_ne hs ht a e d
          rw [h1, h2] at this
          cases hp : exchangeCells a e d L K with
          | none => rw [hp] at this; exact this
          | some p => rw [hp] at this; exact this)
      simp only [set2 S hij] at this
      rw [e1]
      simp only [exchangeCells, if_pos hb] at this ⊢
      exact this
    · rw [if_pos (by omega)]
      simp only [exchangeCells, if_neg hb]
      exact agrees_err rfl I

theorem inv_init (T : Traits) : Inv T (World.init : World α) [] :=
  ⟨⟨fun a => by simp [World.init], fun _ _ => rfl, fun h k hk => by simp [World.init] at hk, fun h k hk => by simp [World.init] at hk,
    fun i c h hc => by simp [World.init] at hc, fun h e => by cases e⟩, rfl,
    fun j => by simp [World.get, Items.at, World.init, ItemOk], fun l hl => by simp [World.init] at hl⟩

/-- Every history of defined steps. -/
theorem steps_ok : ∀ (cs : List (Step α)) {w : World α} {S : Items α}, Inv T w S → DefinedAll T S cs →
    ∃ w', runSteps T cs w = some w' ∧ Inv T w' (specSteps T S cs) := by
  intro cs
  induction cs with
  | nil => intro w S I _; exact ⟨w, rfl, I⟩
  | cons c cs ih =>
    intro w S I hd
    have h1 := step_ok I c hd.1
    simp only [runSteps]
    cases ho : c.run T w with
    | ub => rw [ho] at h1; exact h1.elim
    | ok w1 => rw [ho] at h1; exact ih h1.2 hd.2
    | err e w1 => rw [ho] at h1; exact ih h1.2 hd.2

theorem reached_inv (h : Reached T w S) : Inv T w S := by
  obtain ⟨cs, h1, h2, rfl⟩ := h
  obtain ⟨w', e, I⟩ := steps_ok cs (inv_init T) h1
  rw [e] at h2; cases h2
  exact I

end Mdds.Mtv.Cow
