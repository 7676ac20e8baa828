import Verif.Quad.HeapWorld
/-!
Memory safety of `point_quad_tree` (C65) for all programs, whatever they insert and remove.
-/
namespace Mdds.Quad

open AT

variable {V : Type}

/-- **C65 (safety).**  Whatever a program does with any number of containers (as long as it only uses containers that exist), up
to the first exception: no deleted node is read, written or released, and no null pointer is followed. -/
theorem C65_safe (l : List (Call V)) (hl : fitsAll (fun _ => false) l = true) : World.run World.start l ≠ .ub := by
  obtain ⟨h1, h2⟩ := GInv.start.runs (U := fun _ => false) (fun _ => rfl) l hl
  intro hu
  rw [hu] at h2
  cases hs : semRun (fun _ => none) l with
  | ok S => rw [hs] at h2; obtain ⟨w, h, _⟩ := h2; cases h
  | err e => rw [hs] at h2; cases h2
  | ub => exact h1 hs

/-- **C65 (contents).**  The pointer structure does what the tree model in `Model.lean` says: the program throws exactly if the model
does, and the same; and otherwise following the pointers from any container gives the tree of the model, including which
parent pointers are right. -/
theorem C65_refines (l : List (Call V)) (hl : fitsAll (fun _ => false) l = true) :
    match semRun (fun _ => none) l with
    | .ok S => ∃ w, World.run World.start l = .ok w ∧ ∀ i, match S i with
      | none => w.var i = none
      | some t => ∃ r, w.var i = some r ∧ view (w.mem.next + 1) none r w.mem = .ok t
    | .err e => World.run World.start l = .err e
    | .ub => False := by
  obtain ⟨h1, h2⟩ := GInv.start.runs (U := fun _ => false) (fun _ => rfl) l hl
  cases hs : semRun (fun _ => none) l with
  | ub => exact h1 hs
  | err e => rw [hs] at h2; exact h2
  | ok S =>
    rw [hs] at h2
    obtain ⟨w, hr, _, g, h, _⟩ := h2
    refine ⟨w, hr, fun i => ?_⟩
    rw [h.spec i, h.var i]
    have hsh := h.sh i
    have hlk := h.lk i
    have hone := h.one i
    have hin : ∀ b, 0 < (own (g i)).cnt b → inAny g b := fun b hb => ⟨i, hb⟩
    cases hg : g i with
    | none => rfl
    | some t =>
      rw [show own (g i) = t by rw [hg]; rfl] at hsh hlk hone hin
      exact ⟨_, rfl, hsh.view hlk hone hin (fun a ha => nomatch ha) (hsh.depth_le h.rc hone)⟩

theorem ran {l : List (Call V)} (hl : fitsAll (fun _ => false) l = true) {w : World V} (hr : World.run World.start l = .ok w) :
    ∃ S g, semRun (fun _ => none) l = .ok S ∧ GInv w S g ∧ Named (usesAll (fun _ => false) l) S := by
  obtain ⟨h1, h2⟩ := GInv.start.runs (U := fun _ => false) (fun _ => rfl) l hl
  cases hs : semRun (fun _ => none) l with
  | ub => exact absurd hs h1
  | err e => rw [hs] at h2; rw [show World.run World.start l = .err e from h2] at hr; cases hr
  | ok S =>
    rw [hs] at h2
    obtain ⟨w', hr', n, g, h, _⟩ := h2
    rw [hr] at hr'; cases hr'
    exact ⟨S, g, rfl, h, n⟩

theorem GInv.at {w : World V} {S : Trees V} {g : Nat → Option (AT V)} (h : GInv w S g) {i : Nat} {r : Option Nat} (hi : w.var i = some r) :
    r = (own (g i)).root ∧ S i = some (own (g i)).tree := by
  rw [h.var i] at hi
  rw [h.spec i]
  cases hg : g i with
  | none => rw [hg] at hi; cases hi
  | some t => rw [hg] at hi; cases hi; exact ⟨rfl, rfl⟩

/-- **C65 (no sharing).**  At any time no node can be reached from two containers, and every node that can be reached is alive; -/
theorem C65_separate (l : List (Call V)) (hl : fitsAll (fun _ => false) l = true) {w : World V} (hr : World.run World.start l = .ok w) :
    (∀ i j r s b, w.var i = some r → w.var j = some s → Reach w.mem r b → Reach w.mem s b → i = j) ∧
    ∀ i r b, w.var i = some r → Reach w.mem r b → w.mem.cell b ≠ none := by
  obtain ⟨S, g, _, h, _⟩ := ran hl hr
  refine ⟨fun i j r s b h1 h2 r1 r2 => ?_, fun i r b h1 r1 => ?_⟩
  · rw [(h.at h1).1] at r1
    rw [(h.at h2).1] at r2
    by_contra hne
    have := h.apart i j b hne ((h.sh i).reach.1 r1)
    have := (h.sh j).reach.1 r2
    omega
  · rw [(h.at h1).1] at r1
    obtain ⟨c, hc⟩ := (h.sh i).cell ((h.sh i).reach.1 r1)
    rw [hc]; exact fun e => nomatch e

/-- Number of pointers in the nodes of the heap that lead to the node at `a`. -/
def pointersTo (m : Mem V) (a : Nat) : Nat :=
  ((List.range m.next).map fun b => match m.cell b with
    | none => 0
    | some c => ([c.par, c.ne, c.nw, c.se, c.sw].filter (· = some a)).length).sum

theorem total_sum (f : Nat → Nat) (n : Nat) : total f n = ((List.range n).map f).sum := by
  induction n with
  | zero => rfl
  | succ n ih => rw [List.range_succ, List.map_append, List.sum_append, ← ih]; simp [total]

theorem pointersTo_eq (m : Mem V) (a : Nat) : pointersTo m a = refs m a := by
  unfold pointersTo refs
  rw [total_sum]
  congr 1
  apply List.map_congr_left
  intro b _
  cases m.cell b with
  | none => rfl
  | some c =>
    simp only [hit, Cell.ptrs, List.filter_cons, List.filter_nil, count_cons_opt, List.count_nil, leads, decide_eq_true_eq]
    split <;> split <;> split <;> split <;> split <;> rfl

open Classical in
/-- **C65 (counts).**  the count in a node is the number of pointers to it: those in nodes (lost ones too), and the root pointer of a
container. -/
theorem C65_counts (l : List (Call V)) (hl : fitsAll (fun _ => false) l = true) {w : World V} (hr : World.run World.start l = .ok w)
    {b : Nat} {c : Cell V} (hc : w.mem.cell b = some c) : c.rc = pointersTo w.mem b + if ∃ i, w.var i = some (some b) then 1 else 0 := by
  obtain ⟨S, g, _, h, _⟩ := ran hl hr
  have h1 := h.rc.cnt b
  simp only [Mem.rcOf, hc] at h1
  rw [h1, pointersTo_eq]
  simp only [heldBy]
  have : (∃ i, (own (g i)).root = some b) ↔ ∃ i, w.var i = some (some b) := by
    constructor
    · rintro ⟨i, hi⟩
      refine ⟨i, ?_⟩
      rw [h.var i]
      cases hg : g i with
      | none => rw [hg] at hi; cases hi
      | some t => rw [hg] at hi; simp only [Option.map_some]; exact congrArg some hi
    · rintro ⟨i, hi⟩
      exact ⟨i, (h.at hi).1.symm⟩
  congr 1
  by_cases e : ∃ i, w.var i = some (some b)
  · rw [if_pos e, if_pos (this.2 e)]
  · rw [if_neg e, if_neg (fun h => e (this.1 h))]

/-- **C65 (find).**  `find` on the heap gives what it gives on the tree of the model. -/
theorem C65_find (l : List (Call V)) (hl : fitsAll (fun _ => false) l = true) {w : World V} (hr : World.run World.start l = .ok w)
    {i : Nat} {r : Option Nat} (hi : w.var i = some r) (x y : Int) :
    ∃ S t, semRun (fun _ => none) l = .ok S ∧ S i = some t ∧ findH x y r w.mem = find t x y := by
  obtain ⟨S, g, hs, h, _⟩ := ran hl hr
  obtain ⟨e1, e2⟩ := h.at hi
  subst e1
  exact ⟨S, _, hs, e2, findH_any x y h.rc (h.sh i) (h.one i)⟩

/-- A program that removes nodes with children, so that nodes have wrong parent pointers and some are lost, and goes on with the trees: it
inserts, copies, assigns, swaps, removes again and clears. -/
def innerProgram : List (Call Nat) :=
  [.make 3, .insert 3 0 0 1, .insert 3 100 100 2, .insert 3 50 50 3, .insert 3 5 5 4, .insert 3 (-5) 60 4, .remove 3 0 0, .insert 3 70 70 7,
    .make 0, .insert 0 0 0 1, .insert 0 100 100 2, .insert 0 50 50 3, .insert 0 5 5 4, .insert 0 (-7) 3 5, .insert 0 4 (-9) 6, .insert 0 (-1) (-1) 7,
    .remove 0 0 0, .copy 1 0, .insert 0 60 70 8, .insert 1 2 3 9, .remove 0 5 5, .make 2, .assign 2 0, .swap 1 2, .remove 2 100 100, .clear 0,
    .insert 0 1 1 1, .insert 0 2 2 2, .remove 0 1 1, .destroy 1]

example : fitsAll (fun _ => false) innerProgram = true := by decide +kernel

/-- The points in container `i` after a program. -/
def pointsAfter (l : List (Call Nat)) (i : Nat) : Option (List (Int × Int)) :=
  match semRun (fun _ => none) l with
  | .ok S => (S i).map fun t => (allData t).map fun p => (p.x, p.y)
  | _ => none

/-- It runs to its end and leaves 14 nodes in the heap: 1 in container 0, 6 in container 2, 3 in container 3; the other 4 are lost. -/
example : leftAfter innerProgram = some 14 ∧ pointsAfter innerProgram 0 = some [(2, 2)] ∧ pointsAfter innerProgram 1 = none ∧
    pointsAfter innerProgram 2 = some [(-1, -1), (4, -9), (50, 50), (5, 5), (2, 3), (-7, 3)] ∧
    pointsAfter innerProgram 3 = some [(5, 5), (70, 70), (-5, 60)] := by decide +kernel

/-- A program that ends with an exception (C48): -/
def throwingProgram : List (Call Nat) := [.make 0, .insert 0 0 0 1, .insert 0 10 10 2, .insert 0 20 20 3, .remove 0 10 10, .remove 0 20 20]

example : fitsAll (fun _ => false) throwingProgram = true ∧
    (match World.run World.start throwingProgram with | .err e => some e | _ => none) = some .general := by decide +kernel

end Mdds.Quad
