import Verif.Mtm.ObjectsSpec
import Verif.Mtm.Equal
/-! # Several matrices (C79) -/
namespace Mdds.Mtm
open Mdds.Mtv (St)

variable {D I S : Type} [DecidableEq D] [DecidableEq I] [DecidableEq S]

/-- A matrix of the program and what it should be. -/
def SimSlot : Option (Mtx D I S) → Option (Slot D I S) → Prop
  | none, none => True
  | some m, some (.live t) => Reach m ∧ Shows m t
  | some m, some .moved => m.store = ⟨[], m.store.cur, [], [], 0⟩
  | _, _ => False

/-- All matrices of the program are what they should be. -/
def Sim (w : World D I S) (sw : Tables D I S) : Prop := List.Forall₂ SimSlot w sw

theorem Sim.get {w : World D I S} {sw : Tables D I S} (h : Sim w sw) : ∀ {i : Nat} {x : Slot D I S}, sw[i]? = some (some x) →
    ∃ m, w.at_ i = some m ∧ SimSlot (some m) (some x) := by
  induction h with
  | nil => intro i x hx; simp at hx
  | @cons a b l l' hab _ ih =>
    intro i x hx
    cases i with
    | zero =>
      simp at hx
      subst hx
      cases a with
      | none => exact hab.elim
      | some m => exact ⟨m, rfl, hab⟩
    | succ i => exact ih (by simpa using hx)

theorem Sim.put {w : World D I S} {sw : Tables D I S} (h : Sim w sw) (i : Nat) {a : Option (Mtx D I S)} {b : Option (Slot D I S)}
    (hab : SimSlot a b) : Sim (w.set i a) (sw.set i b) := by
  induction h generalizing i with
  | nil => exact .nil
  | cons hd hl ih =>
    cases i with
    | zero => exact .cons hab hl
    | succ i => exact .cons hd (ih i)

theorem Sim.add {w : World D I S} {sw : Tables D I S} (h : Sim w sw) {a : Option (Mtx D I S)} {b : Option (Slot D I S)}
    (hab : SimSlot a b) : Sim (w ++ [a]) (sw ++ [b]) := by
  induction h with
  | nil => exact .cons hab .nil
  | cons hd _ ih => exact .cons hd ih

theorem has_iff {sw : Tables D I S} {i : Nat} (h : has (shape sw) i = true) : ∃ t, sw[i]? = some (some (.live t)) := by
  simp only [has, shape, List.getElem?_map, decide_eq_true_eq] at h
  cases e : sw[i]? with
  | none => simp [e] at h
  | some o =>
    cases o with
    | none => simp [e] at h
    | some x =>
      cases x with
      | live t => exact ⟨t, rfl⟩
      | moved => simp [e, Slot.full] at h

theorem exists_iff {sw : Tables D I S} {i : Nat} (h : exists_ (shape sw) i = true) : ∃ x, sw[i]? = some (some x) := by
  simp only [exists_, shape, List.getElem?_map] at h
  cases e : sw[i]? with
  | none => simp [e] at h
  | some o =>
    cases o with
    | none => simp [e] at h
    | some x => exact ⟨x, rfl⟩

theorem set_self {α : Type} {l : List α} {i : Nat} {a : α} (h : l[i]? = some a) : l.set i a = l := by
  obtain ⟨hi, rfl⟩ := List.getElem?_eq_some_iff.1 h
  exact List.set_getElem_self hi

theorem shape_add (sw : Tables D I S) (x : Option (Slot D I S)) : shape (sw ++ [x]) = shape sw ++ shape [x] := by simp [shape]

theorem shape_set (sw : Tables D I S) (i : Nat) (x : Option (Slot D I S)) :
    shape (sw.set i x) = (shape sw).set i (x.map Slot.full) := by simp [shape]

theorem shape_get {sw : Tables D I S} {i : Nat} {x : Option (Slot D I S)} (h : sw[i]? = some x) :
    (shape sw)[i]? = some (x.map Slot.full) := by simp [shape, h]

/-- The wanted outcomes agree with the bookkeeping. -/
theorem does_shape {sw sw' : Tables D I S} {s : Step D I S} (h : Does sw s sw') : shape sw' = after (shape sw) s := by
  cases h with
  | default => exact shape_add _ _
  | sized => exact shape_add _ _
  | fill => exact shape_add _ _
  | arr r c a h => rw [shape_add]; simp only [after, if_pos h]; rfl
  | arrThrows r c a h => simp only [after, if_neg h]
  | copyCtor => exact shape_add _ _
  | moveCtor => rw [shape_add, shape_set]; rfl
  | assign => exact shape_set _ _ _
  | moveAssign => rw [shape_set, shape_set]; rfl
  | moveSelf h =>
    have := shape_get h
    simp only [after, List.set_set]
    exact (set_self this).symm
  | swap h1 h2 =>
    rw [shape_set, shape_set]
    simp only [after, shape_get h1, shape_get h2]
    rfl
  | copy h1 => rw [shape_set]; exact set_self (a := some true) (shape_get h1)
  | copyThrows h1 => rw [shape_set]; exact set_self (a := some true) (shape_get h1)
  | copySelf => rfl
  | call => exact shape_set _ _ _
  | renew => exact shape_set _ _ _
  | destroy => exact shape_set _ _ _

/-- A call on a moved-from matrix that does not look at the old contents. -/
theorem renew_ok {m : Mtx D I S} (hm : m.store = ⟨[], m.store.cur, [], [], 0⟩) {c : MCall D I S} {t : Table D I S} (hc : c.renew = some t) :
    ∃ m', c.run m = some m' ∧ Reach m' ∧ Shows m' t := by
  have hclear : Mtm.clear m = .ok () mk0 := by
    show (match Mtv.clear m.store with
      | .ok (_, s) => MRes.ok () ⟨s, 0, 0⟩
      | .err e s => .err e { m with store := s }
      | .ub => .ub) = _
    generalize m.store.cur = k at hm
    rw [hm]; rfl
  have hcopy : ∀ x : Mtx D I S, copyFrom m x = .ok () x := by
    intro x
    unfold copyFrom
    rw [if_pos (Or.inr (show empty m = true by unfold empty; generalize m.store.cur = k at hm; rw [hm]; rfl))]
  cases c <;> simp only [MCall.renew, Option.some.injEq, reduceCtorEq] at hc
  case clear => subst hc; exact ⟨mk0, by simp [MCall.run, hclear, MRes.state], .default, good_mk0.2⟩
  case resize r c =>
    subst hc
    by_cases h0 : r = 0 ∨ c = 0
    · rw [if_pos h0]
      exact ⟨mk0, by simp [MCall.run, resize, h0, hclear, MRes.state], .default, good_mk0.2⟩
    · rw [if_neg h0]
      exact ⟨mkSize r c, by simp [MCall.run, resize, h0, adopt, hcopy, MRes.state], .sized r c, (good_sized r c).2⟩
  case resizeFill r c v =>
    subst hc
    by_cases h0 : r = 0 ∨ c = 0
    · rw [if_pos h0]
      exact ⟨mk0, by simp [MCall.run, resizeFill, h0, hclear, MRes.state], .default, good_mk0.2⟩
    · rw [if_neg h0]
      obtain ⟨x, h1, -, h3⟩ := good_fill (D := D) (I := I) (S := S) r c v
      exact ⟨x, by simp [MCall.run, resizeFill, h0, adopt, hcopy, h1, MRes.state], .fill r c v h1, h3⟩

/-- One step. -/
theorem step_ok {w : World D I S} {sw : Tables D I S} (hs : Sim w sw) {s : Step D I S} (hl : legal (shape sw) s = true) :
    (∃ w' sw', step w s = some w' ∧ Does sw s sw' ∧ Sim w' sw') ∨
    (step w s = none ∧ ∃ i c t m, s = .call i c ∧ sw[i]? = some (some (.live t)) ∧ Reach m ∧ Shows m t ∧ c.run m = none) := by
  cases s with
  | default => exact Or.inl ⟨_, _, rfl, .default, hs.add ⟨.default, good_mk0.2⟩⟩
  | sized r c => exact Or.inl ⟨_, _, rfl, .sized r c, hs.add ⟨.sized r c, (good_sized r c).2⟩⟩
  | fill r c v =>
    obtain ⟨x, h1, -, h3⟩ := good_fill (D := D) (I := I) (S := S) r c v
    exact Or.inl ⟨_, _, by simp only [step, h1, addNew], .fill r c v, hs.add (a := some x) ⟨.fill r c v h1, h3⟩⟩
  | arr r c a =>
    have := good_arr r c a
    by_cases h0 : r * c = 0 ∨ r * c = a.vals.length
    · obtain ⟨x, h1, -, h3⟩ := this.1 h0
      exact Or.inl ⟨_, _, by simp only [step, h1, addNew], .arr r c a h0, hs.add (a := some x) ⟨.arr r c a h1, h3⟩⟩
    · exact Or.inl ⟨_, _, by simp only [step, this.2 h0, addNew], .arrThrows r c a h0, hs⟩
  | copyCtor i =>
    obtain ⟨t, ht⟩ := has_iff hl
    obtain ⟨m, e, h⟩ := hs.get ht
    exact Or.inl ⟨_, _, by simp only [step, e], .copyCtor ht, hs.add (a := some (copyOf m)) ⟨.copied h.1, copy_shows h.2⟩⟩
  | moveCtor i =>
    obtain ⟨t, ht⟩ := has_iff hl
    obtain ⟨m, e, h⟩ := hs.get ht
    exact Or.inl ⟨_, _, by simp only [step, e], .moveCtor ht,
      (hs.put i (a := some (movedOut m)) (b := some .moved) rfl).add h⟩
  | assign i j =>
    simp only [legal, Bool.and_eq_true] at hl
    obtain ⟨x, hx⟩ := exists_iff hl.1
    obtain ⟨t, ht⟩ := has_iff hl.2
    obtain ⟨a, e1, -⟩ := hs.get hx
    obtain ⟨m, e, h⟩ := hs.get ht
    exact Or.inl ⟨_, _, by simp only [step, e, e1], .assign hx ht,
      hs.put i (a := some (copyOf m)) (b := some (.live t)) ⟨.copied h.1, copy_shows h.2⟩⟩
  | moveAssign i j =>
    simp only [legal, Bool.and_eq_true] at hl
    obtain ⟨x, hx⟩ := exists_iff hl.1
    obtain ⟨t, ht⟩ := has_iff hl.2
    obtain ⟨a, e1, -⟩ := hs.get hx
    obtain ⟨m, e, h⟩ := hs.get ht
    by_cases hij : i = j
    · subst hij
      refine Or.inl ⟨_, _, by simp only [step, e]; rfl, .moveSelf ht, ?_⟩
      have := hs.put i (a := some m) (b := some (.live t)) h
      rw [set_self ht] at this
      rwa [List.set_set]
    · exact Or.inl ⟨_, _, by simp only [step, e, e1], .moveAssign hx ht hij,
        (hs.put j (a := some (movedOut m)) (b := some .moved) rfl).put i (a := some m) (b := some (.live t)) h⟩
  | swap i j =>
    simp only [legal, Bool.and_eq_true] at hl
    obtain ⟨x, hx⟩ := exists_iff hl.1
    obtain ⟨y, hy⟩ := exists_iff hl.2
    obtain ⟨a, e1, h1⟩ := hs.get hx
    obtain ⟨b, e2, h2⟩ := hs.get hy
    exact Or.inl ⟨_, _, by simp only [step, e1, e2], .swap hx hy, (hs.put i h2).put j h1⟩
  | copy i j =>
    simp only [legal, Bool.and_eq_true] at hl
    obtain ⟨u, hu⟩ := has_iff hl.1
    obtain ⟨t, ht⟩ := has_iff hl.2
    obtain ⟨a, e1, h1⟩ := hs.get hu
    obtain ⟨b, e2, h2⟩ := hs.get ht
    by_cases hij : i = j
    · subst hij
      exact Or.inl ⟨_, _, by simp only [step, e1, if_true], .copySelf hu, hs⟩
    · have main := copyFrom_ok (reach_good h1.1) h1.2 (reach_good h2.1) h2.2
      by_cases hn : ∃ r c, r < u.rows ∧ c < u.cols ∧ r < t.rows ∧ c < t.cols ∧ (t.at_ r c).isInt
      · obtain ⟨x, v, f1, -, f3, f4⟩ := main.2 hn
        exact Or.inl ⟨_, _, by simp only [step, e1, e2, if_neg hij, f1, MRes.state, Option.map_some], .copyThrows hu ht hij hn f4,
          hs.put i (a := some x) (b := some (.live v)) ⟨.copy h1.1 h2.1 (by rw [f1]; rfl), f3⟩⟩
      · have hn' : ∀ r c, r < u.rows → c < u.cols → r < t.rows → c < t.cols → ¬ (t.at_ r c).isInt :=
          fun r c a1 a2 a3 a4 a5 => hn ⟨r, c, a1, a2, a3, a4, a5⟩
        obtain ⟨x, f1, -, f3⟩ := main.1 hn'
        exact Or.inl ⟨_, _, by simp only [step, e1, e2, if_neg hij, f1, MRes.state, Option.map_some], .copy hu ht hij hn',
          hs.put i (a := some x) (b := some (.live _)) ⟨.copy h1.1 h2.1 (by rw [f1]; rfl), f3⟩⟩
  | call i c =>
    simp only [legal, Bool.or_eq_true, Bool.and_eq_true] at hl
    have live : ∀ t, sw[i]? = some (some (.live t)) →
        (∃ w' sw', step w (.call i c) = some w' ∧ Does sw (.call i c) sw' ∧ Sim w' sw') ∨
        (step w (.call i c) = none ∧ ∃ i' c' t m, Step.call i c = .call i' c' ∧ sw[i']? = some (some (.live t)) ∧ Reach m ∧
          Shows m t ∧ c'.run m = none) := fun t ht => by
      obtain ⟨m, e, h⟩ := hs.get ht
      cases hr : c.run m with
      | none =>
        exact Or.inr ⟨by simp only [step, e, hr]; rfl, i, c, t, m, rfl, ht, h.1, h.2, hr⟩
      | some m' =>
        have hr' : Reach m' := .call c h.1 hr
        exact Or.inl ⟨_, _, by simp only [step, e, hr, Option.map_some], .call ht ⟨m, m', h.1, h.2, hr, (reach_good hr').shows⟩,
          hs.put i (a := some m') (b := some (.live _)) ⟨hr', (reach_good hr').shows⟩⟩
    rcases hl with hl | ⟨hl, hc⟩
    · obtain ⟨t, ht⟩ := has_iff hl
      exact live t ht
    · obtain ⟨x, hx⟩ := exists_iff hl
      cases x with
      | live t => exact live t hx
      | moved =>
        obtain ⟨m, e, h⟩ := hs.get hx
        obtain ⟨t, ht⟩ := Option.isSome_iff_exists.1 hc
        obtain ⟨m', f1, f2, f3⟩ := renew_ok h ht
        exact Or.inl ⟨_, _, by simp only [step, e, f1, Option.map_some], .renew hx ht,
          hs.put i (a := some m') (b := some (.live t)) ⟨f2, f3⟩⟩
  | destroy i =>
    obtain ⟨x, hx⟩ := exists_iff hl
    obtain ⟨m, e, -⟩ := hs.get hx
    exact Or.inl ⟨_, _, by simp only [step, e], .destroy hx, hs.put i (a := none) (b := none) trivial⟩

theorem run_ok : ∀ (ss : List (Step D I S)) {w : World D I S} {sw : Tables D I S}, Sim w sw → legalAll (shape sw) ss = true →
    (∃ w' sw', run w ss = some w' ∧ DoesAll sw ss sw' ∧ Sim w' sw') ∨
    (run w ss = none ∧ ∃ p i c q sw' t m, ss = p ++ .call i c :: q ∧ DoesAll sw p sw' ∧ sw'[i]? = some (some (.live t)) ∧ Reach m ∧
      Shows m t ∧ c.run m = none)
  | [], w, sw, hs, _ => Or.inl ⟨w, sw, rfl, .nil _, hs⟩
  | s :: ss, w, sw, hs, hl => by
    simp only [legalAll, Bool.and_eq_true] at hl
    rcases step_ok hs hl.1 with ⟨w', sw', h1, h2, h3⟩ | ⟨h1, i, c, t, m, rfl, h3, h4, h5, h6⟩
    · rw [← does_shape h2] at hl
      rcases run_ok ss h3 hl.2 with ⟨w2, sw2, g1, g2, g3⟩ | ⟨g1, p, i, c, q, sw2, t, m, rfl, g3, g4⟩
      · exact Or.inl ⟨w2, sw2, by simp only [run, h1]; exact g1, .cons h2 g2, g3⟩
      · exact Or.inr ⟨by simp only [run, h1]; exact g1, s :: p, i, c, q, sw2, t, m, rfl, .cons h2 g3, g4⟩
    · exact Or.inr ⟨by simp only [run, h1]; rfl, [], i, c, ss, sw, t, m, rfl, .nil _, h3, h4, h5, h6⟩

/-- C79 for programs that give a moved-from matrix new contents before they look at it (`legalAll`): the program does what it would do
with tables that are values, in which a step on one matrix changes no other: copies, assignments (also to itself), moves (also to
itself) and swaps hand over whole tables.  Or its behaviour is undefined because of a call whose behaviour is undefined on a single
matrix with these contents. -/
theorem C79_objects_partial (ss : List (Step D I S)) (hl : legalAll [] ss = true) :
    (∃ (w : World D I S) (sw : Tables D I S), run [] ss = some w ∧ DoesAll [] ss sw ∧ w.length = sw.length ∧
      ∀ (i : Nat) (t : Table D I S), sw[i]? = some (some (Slot.live t)) → ∃ m, w[i]? = some (some m) ∧ Reach m ∧ Shows m t) ∨
    (run [] ss = none ∧ ∃ p i c q sw t m, ss = p ++ .call i c :: q ∧ DoesAll [] p sw ∧ sw[i]? = some (some (.live t)) ∧ Reach m ∧
      Shows m t ∧ c.run m = none) := by
  rcases run_ok ss (w := []) (sw := []) .nil hl with ⟨w, sw, h1, h2, h3⟩ | h
  · refine Or.inl ⟨w, sw, h1, h2, h3.length_eq, fun i t ht => ?_⟩
    obtain ⟨m, e, h⟩ := h3.get ht
    refine ⟨m, ?_, h⟩
    unfold World.at_ at e
    cases hw : w[i]? with
    | none => simp [hw] at e
    | some o => rw [hw] at e; exact congrArg some e
  · exact Or.inr h

/-- C79: a copy compares equal to its source, both ways, whatever the source is. -/
theorem C79_copy_equal (m : Mtx D I S) : equals (copyOf m) m = true ∧ equals m (copyOf m) = true := by
  have key : ∀ (bs : List (Mtv.Blk (Val D I S))) (n : Nat), (copyBlocks n bs).map Mtv.Blk.pos = bs.map Mtv.Blk.pos ∧
      (copyBlocks n bs).map Mtv.Blk.size = bs.map Mtv.Blk.size ∧ (copyBlocks n bs).length = bs.length ∧
      ((copyBlocks n bs).zip bs).all (fun p => Mtv.sameData p.1.data p.2.data) = true ∧
      (bs.zip (copyBlocks n bs)).all (fun p => Mtv.sameData p.1.data p.2.data) = true := by
    intro bs
    induction bs with
    | nil => intro n; simp [copyBlocks]
    | cons b bs ih =>
      intro n
      obtain ⟨pos, size, d⟩ := b
      cases d with
      | none => simpa [copyBlocks, Mtv.sameData] using ih n
      | some d => simpa [copyBlocks, Mtv.sameData] using ih (n + 1)
  obtain ⟨h1, h2, h3, h4, h5⟩ := key m.store.blocks 0
  constructor
  · simp only [equals, copyOf, copyStore, Mtv.equals, h1, h2, h3, h4]; simp
  · simp only [equals, copyOf, copyStore, Mtv.equals, h1, h2, h3, h5]; simp

/-- C79 is violated by a matrix that was moved from: it still reports its old size, but it is empty, and reading any element throws. -/
theorem C79_move_fails : ∃ (ss : List (Step Nat Nat Nat)) (w : World Nat Nat Nat) (m : Mtx Nat Nat Nat),
    run [] ss = some w ∧ w.at_ 0 = some m ∧ m.rows = 3 ∧ m.cols = 2 ∧ empty m = true ∧
      getType m 0 0 = .err .outOfRange m ∧ Mtm.set m 0 0 (.num 1) = .err .outOfRange m := by
  refine ⟨[.sized 3 2, .call 0 (.set 1 1 (.num 5)), .moveCtor 0], _, _, rfl, rfl, ?_⟩
  decide +kernel

/-- The same for every matrix with elements. -/
theorem C79_moved_size_fails {m : Mtx D I S} (hm : Reach m) (h0 : 0 < m.rows * m.cols) :
    (movedOut m).rows * (movedOut m).cols = m.rows * m.cols ∧ empty (movedOut m) = true ∧ empty m = false := by
  refine ⟨rfl, rfl, ?_⟩
  have := empty_iff (reach_good hm) (reach_good hm).shows
  rw [Bool.eq_false_iff]
  intro h
  have := this.1 h
  simp only [tableOf] at this
  omega

/-- A program with copies, assignments to others and to itself, moves, swaps, calls that throw, renewed matrices. -/
def tour : List (Step Nat Nat Nat) :=
  [.sized 3 2, .call 0 (.set 1 1 (.num 5)), .copyCtor 0, .call 1 (.set 0 0 (.str 7)), .fill 2 2 (.bool true), .assign 2 2,
    .moveCtor 1, .assign 1 0, .call 1 (.set 9 9 (.num 1)), .moveAssign 0 2, .swap 2 3, .moveAssign 3 1, .moveAssign 3 3,
    .call 1 (.resizeFill 1 2 (.int 4)), .copy 2 3, .copy 3 3, .copy 0 1, .call 0 .transpose, .copyCtor 2, .destroy 2, .arr 2 2 (.nums [1, 2, 3])]

example : legalAll [] tour = true := by decide +kernel
/-- Size and elements of a matrix after the program. -/
def viewAt (i : Nat) : Option (Nat × Nat) × List (Option (Val Nat Nat Nat)) :=
  match (run [] tour).bind (·.at_ i) with
  | some m => (some (m.rows, m.cols), (Mtv.contents m.store).map (Option.map Prod.snd))
  | none => (none, [])

example : viewAt 0 = (some (2, 2), [some (.bool true), some (.bool true), some (.bool true), some (.bool true)]) := by decide +kernel
example : viewAt 1 = (some (1, 2), [some (.int 4), some (.int 4)]) := by decide +kernel
example : viewAt 2 = (none, []) := by decide +kernel
example : viewAt 3 = (some (3, 2), [none, none, none, none, some (.num 5), none]) := by decide +kernel
example : viewAt 4 = (some (3, 2), [none, none, none, none, some (.num 5), none]) := by decide +kernel

end Mdds.Mtm
