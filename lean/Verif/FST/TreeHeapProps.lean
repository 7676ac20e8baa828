import Verif.FST.TreeHeapStep

/-!
# Searching flat segment trees in memory

Programs construct, copy, move, swap, clear and destroy containers, insert and shift, build trees,
search with and without the tree and with positions, and keep iterators which they advance and
read.  Leaves, non-leaf nodes and iterators are addresses in a memory where using a deleted node or
a null pointer is `ub`.  The outcome is compared with lists of segments (`TreeHeapSpec.lean`).
-/
namespace Mdds.FST.Pool

open Mdds.FST.Mem (slot upd Objs Call Obj listStep AllGood Legal Usable legal_step Faithful)

variable {V : Type}

/-- The non-leaf nodes of the memory. -/
structure PoolsOf (s : State V) (W : World V) : Prop where
  /-- the containers that exist are those of the lists -/
  there : ∀ o, (s.mem.obj (slot o)).isSome = (W.objs o).isSome
  /-- no temporary is left -/
  temp : s.mem.obj 0 = none
  /-- a container may use its tree exactly when the lists say so -/
  valid : ∀ o t, s.mem.obj (slot o) = some t → t.valid = W.valid o
  /-- every node of a pool is alive -/
  alive : ∀ p t, s.mem.obj p = some t → ∀ q, t.base ≤ q ∧ q < t.base + t.size → (s.mem.nl q).isSome
  /-- pools do not overlap -/
  apart : ∀ p p' t t', s.mem.obj p = some t → s.mem.obj p' = some t' → p ≠ p' →
    ∀ q, t.base ≤ q ∧ q < t.base + t.size → ¬ (t'.base ≤ q ∧ q < t'.base + t'.size)
  /-- every non-leaf node belongs to the pool of a container -/
  owned : ∀ q, s.mem.nl q ≠ none → ∃ p t, s.mem.obj p = some t ∧ t.base ≤ q ∧ q < t.base + t.size

/-- Calls a program may make.  A position given to a search must stand in the container that is
searched, unless it was made by another container; an iterator may be advanced while its leaf
belongs to the container it was made by. -/
def LegalCmd (W : World V) : Cmd V → Prop
  | .call c => Legal W.objs c
  | .build o => W.objs o ≠ none
  | .find _ o _ => W.objs o ≠ none
  | .scan _ o _ hint => Usable W.objs o ∧ hintOk W o hint
  | .begin _ o => W.objs o ≠ none
  | .next x => ∃ i, W.it x = some i ∧ i.db = i.owner
  | .look x => W.it x ≠ none

section
variable [DecidableEq V]

/-- A program of calls each of which is allowed when it is made. -/
def LegalProg (dv : V) (W : World V) : List (Cmd V) → Prop
  | [] => True
  | c :: cs => LegalCmd W c ∧ ∀ W' r, specStep dv W c = .ok (W', r) → LegalProg dv W' cs

end

/-! ## Proofs -/

variable {s : State V} {W : World V} {C : Nat → List Nat}

theorem Inv.poolsOf (h : Inv s W C) : PoolsOf s W :=
  ⟨h.exs, ex_false h.temp, h.flag, fun p t ht q hq => (h.pools.alive p t ht q hq).1, h.pools.apart,
    fun q hq => h.pools.only q (Option.isSome_iff_ne_none.2 hq)⟩

/-- An iterator that may be used stands at a leaf of its container. -/
theorem Inv.place (h : Inv s W C) {x : Nat} {i : Place} (hi : W.it x = some i) :
    ∃ ob l, W.objs i.owner = some ob ∧ ob.leaves[i.idx]? = some l := by
  obtain ⟨g, w, hD, hN⟩ := h.pic
  obtain ⟨a, ha, -⟩ := h.it x i hi
  cases ho : W.objs i.owner with
  | none => rw [hN _ ho] at ha; simp at ha
  | some ob => exact ⟨ob, g.D a, rfl, by rw [← hD _ ob ho]; exact leaf_at ha⟩

section
variable [DecidableEq V]

omit [DecidableEq V] in
theorem inv_start (dv : V) : ∃ C, Inv (State.start : State V) World.start C := by
  obtain ⟨C, r⟩ := Mdds.FST.Mem.rel_start dv
  exact ⟨C, r, ⟨fun p t h => (by cases h), fun p p' t t' h => (by cases h), fun q h => (by cases h)⟩, rfl, fun _ => rfl,
    fun o t h => (by cases h), fun o t h => (by cases h), fun x i h => (by cases h)⟩

theorem legal_cmd (dv : V) (h : Inv s W C) (g : AllGood dv W.objs) {c : Cmd V} (hc : LegalCmd W c) :
    ∃ W' r, specStep dv W c = .ok (W', r) ∧ AllGood dv W'.objs := by
  have exi : ∀ {o}, W.objs o ≠ none → ∃ x, W.objs o = some x := fun h => Option.ne_none_iff_exists'.1 h
  cases c with
  | call c =>
    obtain ⟨S', out, e, g'⟩ := legal_step dv g hc
    exact ⟨_, _, by simp only [specStep, e]; rfl, g'⟩
  | build o =>
    obtain ⟨x, hx⟩ := exi hc
    refine ⟨_, _, by simp only [specStep, hx]; rfl, ?_⟩
    exact g
  | find x o key =>
    obtain ⟨ob, hx⟩ := exi hc
    refine ⟨_, _, by simp only [specStep, hx]; rfl, ?_⟩
    exact g
  | scan x o key hint =>
    obtain ⟨⟨ob, hx, hl⟩, hh⟩ := hc
    refine ⟨{ W with it := upd W.it x (resultPlace o ob.leaves (segmentAt key 0 ob.leaves)) },
      .found (report (segmentAt key 0 ob.leaves)), ?_, g⟩
    simp only [specStep, hx]
    rw [if_neg (by rw [not_or, not_not]; exact ⟨hl, hh⟩)]
  | begin x o =>
    obtain ⟨ob, hx⟩ := exi hc
    refine ⟨_, _, by simp only [specStep, hx]; rfl, ?_⟩
    exact g
  | next x =>
    obtain ⟨i, hi, hdb⟩ := hc
    obtain ⟨ob, l, ho, -⟩ := h.place hi
    refine ⟨{ W with it := upd W.it x (some (if i.idx + 1 = ob.leaves.length then { i with fin := true }
        else { i with idx := i.idx + 1 })) }, .nothing, ?_, g⟩
    simp only [specStep, hi]
    rw [if_pos hdb]
    simp only [ho]
  | look x =>
    obtain ⟨i, hi⟩ := Option.ne_none_iff_exists'.1 hc
    obtain ⟨ob, l, ho, hl⟩ := h.place hi
    exact ⟨_, _, by simp only [specStep, hi, ho, hl]; rfl, g⟩

theorem prog_ok (dv : V) (cs : List (Cmd V)) : ∀ {s : State V} {W : World V} {C : Nat → List Nat}, Inv s W C → AllGood dv W.objs →
    LegalProg dv W cs → ∃ s' W' rs C', runP dv s cs = .ok (s', rs) ∧ specRun dv W cs = .ok (W', rs) ∧ Inv s' W' C' := by
  induction cs with
  | nil => intro s W C h _ _; exact ⟨s, W, [], C, rfl, rfl, h⟩
  | cons c cs ih =>
    intro s W C h g hl
    obtain ⟨W1, r, e1, g1⟩ := legal_cmd dv h g hl.1
    obtain ⟨s1, C1, e2, h1⟩ := step_ok dv h g e1
    obtain ⟨s2, W2, rs, C2, e3, e4, h2⟩ := ih h1 g1 (hl.2 W1 r e1)
    exact ⟨s2, W2, r :: rs, C2, by simp only [runP, e2, e3], by simp only [specRun, e1, e4], h2⟩

/-! ## The properties -/

/-- A program of legal calls never uses a deleted node or a null pointer, whatever trees it builds
and whatever iterators it holds; all its searches and iterators tell what lists of segments would;
and the memory contains the leaves and pools of the containers and nothing else. -/
theorem C71_searches_refine (dv : V) (cs : List (Cmd V)) (h : LegalProg dv World.start cs) :
    ∃ s W rs, runP dv State.start cs = .ok (s, rs) ∧ specRun dv World.start cs = .ok (W, rs) ∧
      Faithful ⟨s.mem.lh, s.init⟩ W.objs ∧ PoolsOf s W := by
  obtain ⟨C, h0⟩ := inv_start dv
  obtain ⟨s, W, rs, C', e1, e2, h'⟩ := prog_ok dv cs h0 (fun o x hx => by cases hx) h
  exact ⟨s, W, rs, e1, e2, Mdds.FST.Mem.Rel.faithful ⟨C', h'.rel⟩, h'.poolsOf⟩

/-- Nothing leaks: when all containers have been destroyed, no leaf and no non-leaf node is left. -/
theorem C71_no_leak (dv : V) (cs : List (Cmd V)) (h : LegalProg dv World.start cs) {s : State V} {W : World V} {rs : List (Ret V)}
    (e1 : runP dv State.start cs = .ok (s, rs)) (e2 : specRun dv World.start cs = .ok (W, rs)) (hW : ∀ o, W.objs o = none) :
    (∀ a, s.mem.lh.node a = none) ∧ ∀ q, s.mem.nl q = none := by
  obtain ⟨s', W', rs', e1', e2', hf, hp⟩ := C71_searches_refine dv cs h
  rw [e1] at e1'; cases e1'
  rw [e2] at e2'; cases e2'
  refine ⟨fun a => ?_, fun q => ?_⟩
  · by_contra hn
    obtain ⟨o, x, as, ho, -⟩ := hf.owned a hn
    rw [hW] at ho; cases ho
  · by_contra hn
    obtain ⟨p, t, ht, -⟩ := hp.owned q hn
    cases p with
    | zero => rw [hp.temp] at ht; cases ht
    | succ o =>
      have := hp.there o
      rw [hW] at this
      have e : s.mem.obj (slot o) = some t := ht
      rw [e] at this; cases this

omit [DecidableEq V] in
/-- What the specification of a search says: the segment reported is the one between two neighbours
that has the key. -/
theorem segmentAt_spec {key : Int} : ∀ {ls : List (Leaf V)} {n : Nat} {h : Hit V}, segmentAt key n ls = some h →
    ∃ j, h.idx = n + j ∧ ls[j]? = some (h.start, h.value) ∧ (∃ v, ls[j + 1]? = some (h.stop, v)) ∧ h.start ≤ key ∧ key < h.stop := by
  intro ls
  induction ls with
  | nil => intro n h e; cases e
  | cons a t ih =>
    intro n h e
    cases t with
    | nil => cases e
    | cons b rest =>
      rw [segmentAt] at e
      split at e
      · rename_i hk
        cases e
        exact ⟨0, rfl, rfl, ⟨b.2, rfl⟩, hk.1, hk.2⟩
      · obtain ⟨j, h1, h2, h3, h4⟩ := ih e
        exact ⟨j + 1, by omega, by simpa using h2, by simpa using h3, h4⟩

/-! ## Examples -/

/-- What was reported by searches and read through iterators. -/
def told : List (Ret Int) → List (Option (Int × Int × Int))
  | [] => []
  | .found f :: rs => f :: told rs
  | .leaf l :: rs => some (l.1, l.2, 0) :: told rs
  | _ :: rs => told rs

def nodes (s : State Int) : Nat × Nat :=
  (((List.range s.mem.lh.fresh).filter fun a => (s.mem.lh.node a).isSome).length,
    ((List.range s.mem.next).filter fun a => (s.mem.nl a).isSome).length)

def demo : List (Cmd Int) :=
  [.call (.make 0 0 100 0), .call (.insert 0 10 20 5 true), .call (.insert 0 20 50 7 false), .build 0, .find 0 0 15, .find 1 0 30,
   .call (.make 1 0 40 1), .call (.swap 0 1), .find 2 1 30, .look 0, .scan 3 1 60 (some 2), .next 2, .look 2, .call (.insert 1 5 8 3 true),
   .find 4 1 30, .build 1, .find 4 1 6, .call (.move 2 1), .find 5 2 6, .look 4, .find 6 1 6]

example : (runP 0 State.start demo).map (fun p => (told p.2, nodes p.1)) =
    .ok ([some (5, 10, 20), some (7, 20, 50), some (7, 20, 50), some (10, 5, 0), some (0, 50, 100), some (50, 0, 0), none, some (3, 5, 8),
      some (3, 5, 8), some (5, 3, 0), none], (9, 7)) := by decide +kernel

example : (specRun 0 World.start demo).map (fun p => told p.2) = (runP 0 State.start demo).map (fun p => told p.2) := by decide +kernel

/-- All gone. -/
example : (runP 0 State.start (demo ++ [.call (.destroy 0), .call (.destroy 1), .call (.destroy 2)])).map (fun p => nodes p.1) =
    .ok (0, 0) := by decide +kernel

theorem LegalProg.cons {dv : Int} {W W1 : World Int} {c : Cmd Int} {r : Ret Int} {cs : List (Cmd Int)}
    (h : LegalCmd W c) (e : specStep dv W c = .ok (W1, r)) (h1 : LegalProg dv W1 cs) : LegalProg dv W (c :: cs) :=
  ⟨h, fun W' r' e' => by rw [e] at e'; cases e'; exact h1⟩

/-- `C71_searches_refine`, `C71_no_leak`: a legal program -/
example : LegalProg (0 : Int) World.start
    [.call (.make 0 0 100 0), .call (.insert 0 10 20 5 true), .build 0, .find 0 0 15, .scan 1 0 60 (some 0), .next 0, .look 0,
     .call (.make 1 0 40 1), .call (.swap 0 1), .find 2 1 12, .look 0, .call (.destroy 0), .call (.destroy 1)] := by
  refine .cons ⟨rfl, by decide⟩ rfl ?_
  refine .cons ⟨_, _, rfl, rfl, by decide⟩ rfl ?_
  refine .cons (by decide : _ ≠ _) rfl ?_
  refine .cons (by decide : _ ≠ _) rfl ?_
  refine .cons ⟨⟨_, rfl, by decide⟩, _, rfl, fun _ => rfl⟩ rfl ?_
  refine .cons ⟨_, rfl, rfl⟩ rfl ?_
  refine .cons (by decide : _ ≠ _) rfl ?_
  refine .cons ⟨rfl, by decide⟩ rfl ?_
  refine .cons ⟨by decide, by decide⟩ rfl ?_
  refine .cons (by decide : _ ≠ _) rfl ?_
  refine .cons (by decide : _ ≠ _) rfl ?_
  refine .cons (by decide : _ ≠ _) rfl ?_
  refine .cons (by decide : _ ≠ _) rfl ?_
  trivial

end

/-! ## What does not hold -/

/-- A position made by a container whose contents have been swapped away: a search of that
container with this position reports a segment of the other container. -/
theorem C71_stale_position_fails :
    (runP (0 : Int) State.start [.call (.make 0 0 100 0), .call (.make 1 0 50 7), .begin 0 0, .call (.swap 0 1), .scan 1 0 20 (some 0),
      .scan 1 0 20 none]).map (fun p => told p.2) = .ok [some (0, 0, 100), some (7, 0, 50)] := by decide +kernel

/-- An iterator whose leaves have been swapped into another container: `++` runs past the last leaf
to a null pointer. -/
theorem C71_advance_after_swap_fails :
    runP (0 : Int) State.start [.call (.make 0 0 100 0), .call (.make 1 0 50 7), .begin 0 0, .call (.swap 0 1), .next 0, .next 0, .look 0]
      matches .ub := by decide +kernel

/-- An iterator at a leaf that has been removed. -/
theorem C71_removed_leaf_fails :
    runP (0 : Int) State.start [.call (.make 0 0 100 0), .call (.insert 0 10 20 5 true), .scan 0 0 15 none, .call (.insert 0 5 30 1 true),
      .look 0] matches .ub := by decide +kernel

end Mdds.FST.Pool
