import Verif.FST.HeapStep
import Verif.FST.Props

/-!
# C62: memory of flat_segment_tree

A program makes, copies, moves, assigns, swaps, fills, clears and destroys any number of
containers in any order.  Then

* no call reads, writes or deletes a node after it was deleted, or follows a null pointer;
* the nodes of every container, followed forwards or backwards through the links, hold exactly
  the leaves the list model gives the container, so everything proved in `Props.lean` about
  lists holds of the nodes;
* the nodes of different containers are different, and every node not yet deleted belongs to a
  container: nothing leaks; when the last container is destroyed no node is left;
* every reference count is the number of pointers to the node.
-/
namespace Mdds.FST.Mem

variable {V : Type}

/-! ## What the memory should look like -/

/-- The memory shows exactly the containers `S`. -/
structure Faithful (m : Mem V) (S : Objs V) : Prop where
  /-- walking the links of a container in either direction gives its leaves -/
  chain : ∀ o x, S o = some x → ∃ as : List Nat, m.forward o = some as ∧ m.backward o = some as.reverse ∧
    as.map m.leaf = x.leaves.map some ∧ as.Nodup
  /-- containers do not share nodes -/
  apart : ∀ o p as bs, o ≠ p → m.forward o = some as → m.forward p = some bs → ∀ a ∈ as, a ∉ bs
  /-- every node that has not been deleted belongs to a container -/
  owned : ∀ a, m.heap.node a ≠ none → ∃ o x as, S o = some x ∧ m.forward o = some as ∧ a ∈ as
  /-- the reference count of a node is the number of places that point to it -/
  counts : ∀ a n, m.heap.node a = some n →
    ∃ places : List Loc, places.Nodup ∧ (∀ l, l ∈ places ↔ m.heap.read l = some a) ∧ n.rc = places.length
  /-- no local pointer outlives its function -/
  locals : ∀ x, m.heap.root (.var x) = none

/-- A container that exists and has not been moved from. -/
def Usable (S : Objs V) (o : Nat) : Prop := ∃ x, S o = some x ∧ x.leaves ≠ []

/-- Calls a program may make.  `insert` must not be given a range that ends exactly at the left
border from below (that one really is a fault, see `C01_insert_fails`). -/
def Legal (S : Objs V) : Call V → Prop
  | .make o lo hi _ => S o = none ∧ lo < hi
  | .destroy o => S o ≠ none
  | .copy o r => S o = none ∧ Usable S r
  | .move o r => S o = none ∧ S r ≠ none
  | .assignCopy o r => S o ≠ none ∧ Usable S r
  | .assignMove o r => S o ≠ none ∧ S r ≠ none
  | .swap a b => S a ≠ none ∧ S b ≠ none
  | .clear o => Usable S o
  | .insert o s e _ _ => ∃ x l, S o = some x ∧ x.leaves.head? = some l ∧ ¬ (s < l.1 ∧ e = l.1)
  | .insertAt o hint s e _ => ∃ x l, S o = some x ∧ x.leaves.head? = some l ∧ ¬ (s < l.1 ∧ e = l.1) ∧
      ∀ i, hint = some i → i < x.leaves.length
  | .shiftLeft o _ _ => Usable S o
  | .shiftRight o _ _ _ => Usable S o

section
variable [DecidableEq V]

/-- Every call of the program is legal when it is made. -/
def LegalRun (dv : V) (S : Objs V) : List (Call V) → Prop
  | [] => True
  | c :: cs => Legal S c ∧ ∀ S' out, listStep dv S c = .ok (S', out) → LegalRun dv S' cs

/-! ## Proofs -/

omit [DecidableEq V] in
theorem walk_eq {h : Heap V} {N : Nat → Option Nat} {link : Node V → Option Nat}
    (hn : ∀ a n, h.node a = some n → link n = N a) : ∀ (as : List Nat) (fuel : Nat), Path N as none →
    (∀ a ∈ as, Live h a) → as.length ≤ fuel → walk h link fuel as.head? = some as := by
  intro as
  induction as with
  | nil => intro fuel _ _ _; cases fuel <;> rfl
  | cons a t ih =>
    intro fuel hp hl hf
    cases fuel with
    | zero => simp at hf
    | succ f =>
      rw [path_cons, Option.or_none] at hp
      obtain ⟨n, hna⟩ := Option.isSome_iff_exists.1 (hl a (by simp))
      show walk h link (f + 1) (some a) = _
      simp only [walk, hna, hn a n hna, hp.1]
      rw [ih f hp.2 (fun b hb => hl b (by simp [hb])) (by simp at hf; omega)]
      rfl

omit [DecidableEq V] in
theorem Rel.faithful {m : Mem V} {S : Objs V} (r : Rel m S) : Faithful m S := by
  obtain ⟨C, hini, L, ⟨g, w, hCL⟩, h0, hL⟩ := r
  have hlen : ∀ o, (C o).length ≤ m.heap.fresh := fun o => by rw [w.sat.fr]; exact (w.st o).length_le
  have hfw : ∀ o, m.forward o = some (C (slot o)) := fun o => by
    unfold Mem.forward
    rw [w.sat.root, w.left]
    exact walk_eq (fun a n hn => (w.sat.node a n hn).1) _ _ (w.fwd _) (fun a ha => w.live ha) (hlen _)
  have hbw : ∀ o, m.backward o = some (C (slot o)).reverse := fun o => by
    unfold Mem.backward
    rw [w.sat.root, w.right, ← List.head?_reverse]
    exact walk_eq (fun a n hn => (w.sat.node a n hn).2.1) _ _ (w.bwd _) (fun a ha => w.live (List.mem_reverse.1 ha))
      (by rw [List.length_reverse]; exact hlen _)
  have hleaf : ∀ o a, a ∈ C o → m.leaf a = some (g.D a) := fun o a ha => by
    obtain ⟨n, hn⟩ := Option.isSome_iff_exists.1 (w.live ha)
    have := w.sat.node a n hn
    simp [Mem.leaf, hn, Pic.D, this.2.2.1, this.2.2.2.1]
  refine ⟨fun o x ho => ⟨C (slot o), hfw o, hbw o, ?_, w.nodup _⟩, ?_, ?_, ?_, ?_⟩
  · have := hL o
    rw [ho] at this
    simp only [Option.map_some, Option.getD_some] at this
    rw [← this, ← hCL, List.map_map]
    exact List.map_congr_left fun a ha => hleaf _ a ha
  · intro o p as bs hop h1 h2
    rw [hfw] at h1 h2
    cases h1; cases h2
    exact w.disj _ _ (fun e => hop (Nat.succ.inj e))
  · intro a ha
    obtain ⟨p, hp⟩ := w.U a (w.sat.inU (Option.isSome_iff_ne_none.2 ha))
    cases p with
    | zero =>
      have := hCL 0
      rw [h0] at this
      have : C 0 = [] := by simpa using this
      rw [this] at hp; simp at hp
    | succ o =>
      have h1 := hL o
      cases ho : S o with
      | none =>
        rw [ho] at h1
        have : (C (slot o)).map g.D = [] := by rw [hCL]; simpa using h1
        have : C (o + 1) = [] := by simpa [slot] using this
        rw [this] at hp; simp at hp
      | some x => exact ⟨o, x, C (slot o), ho, hfw o, hp⟩
  · intro a n hn
    obtain ⟨pl, h1, h2, h3⟩ := w.sat.wf.rc a n hn
    exact ⟨pl, h1, h2, by simpa using h3⟩
  · intro x; rw [w.sat.root]; exact w.vars x

/-! ### Legal calls -/

/-- The leaves are those of a container the program could have built on its own. -/
def Good (dv : V) (x : Obj V) : Prop :=
  x.leaves = [] ∨ ∃ lo hi st, Reachable dv lo hi x.init st ∧ st.leaves = x.leaves

theorem run_snoc (st : State V) (ops : List (Op V)) (op : Op V) {st1 st2 : State V} (h1 : run st ops = .ok st1)
    (h2 : step st1 op = .ok st2) : run st (ops ++ [op]) = .ok st2 := by
  induction ops generalizing st with
  | nil => cases h1; simp [run, h2]
  | cons o os ih =>
    rw [List.cons_append, run]
    rw [run] at h1
    cases e : step st o with
    | ok s => rw [e] at h1; exact ih s h1
    | err x => rw [e] at h1; cases h1
    | ub => rw [e] at h1; cases h1

theorem reach_step {dv init : V} {lo hi : Int} {st st' : State V} (h : Reachable dv lo hi init st) {op : Op V}
    (hs : step st op = .ok st') : Reachable dv lo hi init st' := by
  obtain ⟨hl, ops, hr⟩ := h
  exact ⟨hl, ops ++ [op], run_snoc _ _ _ hr hs⟩

theorem reach_len {dv init : V} {lo hi : Int} {st : State V} (h : Reachable dv lo hi init st) : 2 ≤ st.leaves.length := by
  have w := h.inv.wf
  match hm : st.leaves with
  | [] => have := w.first; rw [hm] at this; simp at this
  | [a] =>
    have h1 := w.first; have h2 := w.last; have := w.lt
    rw [hm] at h1 h2
    simp at h1 h2
    subst h2
    simp at h1; omega
  | a :: b :: t => simp

theorem Good.len {dv : V} {x : Obj V} (g : Good dv x) : x.leaves.length ≠ 1 := by
  rcases g with h | ⟨lo, hi, st, h, e⟩
  · simp [h]
  · rw [← e]; have := reach_len h; omega

theorem Good.two {dv : V} {x : Obj V} (g : Good dv x) (hn : x.leaves ≠ []) : ¬ x.leaves.length < 2 := by
  rcases g with h | ⟨lo, hi, st, h, e⟩
  · exact absurd h hn
  · rw [← e]; have := reach_len h; omega

theorem Good.after {dv : V} {x : Obj V} {lo hi : Int} {st : State V} (h : Reachable dv lo hi x.init st) {op : Op V}
    {ls : List (Leaf V)} {st' : State V} (hs : step st op = .ok st') (e : st'.leaves = ls) :
    Good dv { x with leaves := ls } := .inr ⟨lo, hi, st', reach_step h hs, e⟩

/-- All containers of the program are well-made. -/
def AllGood (dv : V) (S : Objs V) : Prop := ∀ o x, S o = some x → Good dv x

theorem AllGood.put {dv : V} {S : Objs V} (g : AllGood dv S) {o : Nat} {x : Obj V} (h : Good dv x) :
    AllGood dv (upd S o (some x)) := by
  intro p y hy
  by_cases e : p = o
  · subst e; rw [upd_same] at hy; cases hy; exact h
  · rw [upd_ne _ _ e] at hy; exact g p y hy

theorem AllGood.del {dv : V} {S : Objs V} (g : AllGood dv S) {o : Nat} : AllGood dv (upd S o none) := by
  intro p y hy
  by_cases e : p = o
  · subst e; rw [upd_same] at hy; cases hy
  · rw [upd_ne _ _ e] at hy; exact g p y hy

theorem legal_step (dv : V) {S : Objs V} (g : AllGood dv S) {c : Call V} (hc : Legal S c) :
    ∃ S' out, listStep dv S c = .ok (S', out) ∧ AllGood dv S' := by
  have ex : ∀ {o}, S o ≠ none → ∃ x, S o = some x := fun h => Option.ne_none_iff_exists'.1 h
  have use : ∀ {x : Obj V}, Good dv x → x.leaves ≠ [] → ∃ lo hi st, Reachable dv lo hi x.init st ∧ st.leaves = x.leaves :=
    fun h hn => h.resolve_left hn
  cases c with
  | make o lo hi iv =>
    refine ⟨_, _, by simp only [listStep, hc.1]; rfl, ?_⟩
    exact g.put (.inr ⟨lo, hi, mk dv lo hi iv, ⟨hc.2, [], rfl⟩, rfl⟩)
  | destroy o =>
    obtain ⟨x, hx⟩ := ex hc
    refine ⟨_, _, by simp only [listStep, hx]; rw [if_neg (g o x hx).len], ?_⟩
    exact g.del
  | copy o r =>
    obtain ⟨h1, x, hx, hn⟩ := hc
    refine ⟨_, _, by simp only [listStep, h1, hx]; rw [if_neg ((g r x hx).two hn)], ?_⟩
    exact g.put (g r x hx)
  | move o r =>
    obtain ⟨x, hx⟩ := ex hc.2
    refine ⟨_, _, by simp only [listStep, hc.1, hx]; rfl, ?_⟩
    exact (g.put (g r x hx)).put (.inl rfl)
  | assignCopy o r =>
    obtain ⟨h1, x, hx, hn⟩ := hc
    obtain ⟨y, hy⟩ := ex h1
    have hno := not_or.2 ⟨(g r x hx).two hn, (g o y hy).len⟩
    refine ⟨_, _, by simp only [listStep, hy, hx]; rw [if_neg hno], ?_⟩
    exact g.put (g r x hx)
  | assignMove o r =>
    obtain ⟨x, hx⟩ := ex hc.2
    obtain ⟨y, hy⟩ := ex hc.1
    by_cases e : o = r
    · exact ⟨_, _, by simp only [listStep, hy, hx]; rw [if_pos e], g⟩
    · refine ⟨_, _, by simp only [listStep, hy, hx]; rw [if_neg e, if_neg (g o y hy).len], ?_⟩
      exact (g.put (g r x hx)).put (.inl rfl)
  | swap a b =>
    obtain ⟨x, hx⟩ := ex hc.1
    obtain ⟨y, hy⟩ := ex hc.2
    refine ⟨_, _, by simp only [listStep, hx, hy]; rfl, ?_⟩
    exact (g.put (g b y hy)).put (g a x hx)
  | clear o =>
    obtain ⟨x, hx, hn⟩ := hc
    obtain ⟨lo, hi, st, hr, e⟩ := use (g o x hx) hn
    have hinit : st.init = x.init := hr.inv.init
    obtain ⟨st', hs⟩ := no_ub_partial hr .clear trivial
    have hcl : clearList x.leaves x.init = .ok st'.leaves := by
      have h2 := hs
      simp only [step, FST.clear, e, hinit] at h2
      unfold clearList
      rw [if_neg ((g o x hx).two hn)]
      split at h2
      · rename_i a b ha hb
        rw [ha, hb]; cases h2; rfl
      · cases h2
    refine ⟨_, _, by simp only [listStep, hx, hcl, Outcome.map]; rfl, ?_⟩
    exact g.put (.after hr hs rfl)
  | insert o s e v fwd =>
    obtain ⟨x, l, hx, hl, hse⟩ := hc
    have hn : x.leaves ≠ [] := fun h => by rw [h] at hl; cases hl
    obtain ⟨lo, hi, st, hr, e1⟩ := use (g o x hx) hn
    have hlo : l.1 = lo := by
      have := hr.inv.wf.first
      rw [e1, hl] at this; simpa using this
    rw [hlo] at hse
    obtain ⟨st', hs⟩ := no_ub_partial hr (if fwd then .insertFront s e v else .insertBack s e v)
      (by cases fwd <;> exact hse)
    cases hi : insertSegment x.leaves s e v fwd with
    | ok r =>
      refine ⟨_, _, by simp only [listStep, hx, hi, Outcome.map]; rfl, ?_⟩
      refine g.put (.after hr hs ?_)
      cases fwd <;> (simp [step, e1, hi, applyIns, Outcome.map] at hs) <;> rw [← hs]
    | err y => cases fwd <;> simp [step, e1, hi, applyIns, Outcome.map] at hs
    | ub => cases fwd <;> simp [step, e1, hi, applyIns, Outcome.map] at hs
  | insertAt o hint s e v =>
    obtain ⟨x, l, hx, hl, hse, hh⟩ := hc
    have hn : x.leaves ≠ [] := fun h => by rw [h] at hl; cases hl
    obtain ⟨lo, hi, st, hr, e1⟩ := use (g o x hx) hn
    have hlo : l.1 = lo := by
      have := hr.inv.wf.first
      rw [e1, hl] at this; simpa using this
    rw [hlo] at hse
    obtain ⟨st', hs⟩ := no_ub_partial hr (.insertAt hint s e v) ⟨hse, by rw [e1]; exact hh⟩
    cases hi : insertHint x.leaves hint s e v with
    | ok r =>
      refine ⟨_, _, by simp only [listStep, hx, hi, Outcome.map]; rfl, ?_⟩
      refine g.put (.after hr hs ?_)
      simp [step, e1, hi, applyIns, Outcome.map] at hs; rw [← hs]
    | err y => simp [step, e1, hi, applyIns, Outcome.map] at hs
    | ub => simp [step, e1, hi, applyIns, Outcome.map] at hs
  | shiftLeft o s e =>
    obtain ⟨x, hx, hn⟩ := hc
    obtain ⟨lo, hi, st, hr, e1⟩ := use (g o x hx) hn
    have hinit : st.init = x.init := hr.inv.init
    obtain ⟨st', hs⟩ := no_ub_partial hr (.shiftLeft s e) trivial
    cases hi : shiftLeftLeaves x.leaves x.init s e with
    | ok r =>
      refine ⟨_, _, by simp only [listStep, hx, hi, Outcome.map]; rfl, ?_⟩
      refine g.put (.after hr hs ?_)
      simp [step, e1, hinit, hi, applyShift, Outcome.map] at hs; rw [← hs]
    | err y => simp [step, e1, hinit, hi, applyShift, Outcome.map] at hs
    | ub => simp [step, e1, hinit, hi, applyShift, Outcome.map] at hs
  | shiftRight o pos size skip =>
    obtain ⟨x, hx, hn⟩ := hc
    obtain ⟨lo, hi, st, hr, e1⟩ := use (g o x hx) hn
    have hinit : st.init = x.init := hr.inv.init
    obtain ⟨st', hs⟩ := no_ub_partial hr (.shiftRight pos size skip) trivial
    cases hi : shiftRightLeaves x.leaves x.init pos size skip with
    | ok r =>
      refine ⟨_, _, by simp only [listStep, hx, hi, Outcome.map]; rfl, ?_⟩
      refine g.put (.after hr hs ?_)
      simp [step, e1, hinit, hi, applyShift, Outcome.map] at hs; rw [← hs]
    | err y => simp [step, e1, hinit, hi, applyShift, Outcome.map] at hs
    | ub => simp [step, e1, hinit, hi, applyShift, Outcome.map] at hs

theorem legal_run (dv : V) (cs : List (Call V)) : ∀ {S : Objs V}, AllGood dv S → LegalRun dv S cs →
    ∃ S' outs, listRun dv S cs = .ok (S', outs) ∧ AllGood dv S' := by
  induction cs with
  | nil => intro S g _; exact ⟨S, [], rfl, g⟩
  | cons c cs ih =>
    intro S g h
    obtain ⟨S1, o, e1, g1⟩ := legal_step dv g h.1
    obtain ⟨S2, os, e2, g2⟩ := ih g1 (h.2 S1 o e1)
    exact ⟨S2, o :: os, by simp only [listRun, e1, e2], g2⟩

/-! ## C62 -/

/-- Whenever the list model runs a program, the memory runs it too, tells the program the same,
and shows exactly the containers of the list model. -/
theorem C62_memory_refines (dv : V) (cs : List (Call V)) {S : Objs V} {outs : List (Out V)}
    (h : listRun dv (fun _ => none) cs = .ok (S, outs)) :
    ∃ m, memRun dv Mem.start cs = .ok (m, outs) ∧ Faithful m S := by
  obtain ⟨m, e, r⟩ := run_rel dv cs (rel_start dv) h
  exact ⟨m, e, r.faithful⟩

/-- A program of legal calls never touches a deleted node or a null pointer. -/
theorem C62_no_fault (dv : V) (cs : List (Call V)) (h : LegalRun dv (fun _ => none) cs) :
    ∃ m S outs, memRun dv Mem.start cs = .ok (m, outs) ∧ listRun dv (fun _ => none) cs = .ok (S, outs) ∧ Faithful m S := by
  obtain ⟨S, outs, e, -⟩ := legal_run dv cs (S := fun _ => none) (fun o x hx => by cases hx) h
  obtain ⟨m, em, f⟩ := C62_memory_refines dv cs e
  exact ⟨m, S, outs, em, e, f⟩

/-- Nothing leaks: when all containers have been destroyed no node is left. -/
theorem C62_no_leak (dv : V) (cs : List (Call V)) {S : Objs V} {outs : List (Out V)}
    (h : listRun dv (fun _ => none) cs = .ok (S, outs)) (hS : ∀ o, S o = none) :
    ∃ m, memRun dv Mem.start cs = .ok (m, outs) ∧ ∀ a, m.heap.node a = none := by
  obtain ⟨m, e, f⟩ := C62_memory_refines dv cs h
  refine ⟨m, e, fun a => ?_⟩
  by_contra hn
  obtain ⟨o, x, as, ho, _⟩ := f.owned a hn
  rw [hS] at ho; cases ho

/-- In a program of legal calls every container has at least its two border leaves, or it has been
moved from and has none. -/
theorem leaves_two (dv : V) (cs : List (Call V)) (h : LegalRun dv (fun _ => none) cs) {S : Objs V}
    {outs : List (Out V)} (e : listRun dv (fun _ => none) cs = .ok (S, outs)) {o : Nat} {x : Obj V}
    (hx : S o = some x) : x.leaves = [] ∨ 2 ≤ x.leaves.length := by
  obtain ⟨S', outs', e', g⟩ := legal_run dv cs (S := fun _ => none) (fun o x hx => by cases hx) h
  rw [e] at e'; cases e'
  rcases g o x hx with h1 | ⟨lo, hi, st, h1, h2⟩
  · exact .inl h1
  · exact .inr (h2 ▸ reach_len h1)

end

/-! ### A program meeting the hypotheses -/

/-- make, insert from both ends and at a hint, shift both ways, copy, move, assign, swap -/
def demoCalls : List (Call Int) :=
  [.make 0 0 100 0, .insert 0 10 20 5 true, .insert 0 20 50 7 false, .insertAt 0 (some 1) 15 25 7,
   .copy 1 0, .shiftLeft 1 12 30, .shiftRight 0 10 5 true, .make 2 (-5) 5 1, .swap 1 2, .move 3 2,
   .assignCopy 1 0, .clear 0, .assignMove 2 1, .destroy 1]

def demoDestroy : List (Call Int) := demoCalls ++ [.destroy 0, .destroy 2, .destroy 3]

def shown (r : Outcome (Objs Int × List (Out Int))) : Outcome (List (Option (List (Leaf Int))) × List (Out Int)) :=
  r.map fun p => ((List.range 4).map fun o => (p.1 o).map (·.leaves), p.2)

def seen (r : Outcome (Mem Int × List (Out Int))) :
    Outcome (List (Option (List (Option (Leaf Int)))) × List (Option (List (Option (Leaf Int)))) × Nat × List (Out Int)) :=
  r.map fun p => ((List.range 4).map fun o => (p.1.forward o).map (·.map p.1.leaf),
    (List.range 4).map fun o => (p.1.backward o).map (·.map p.1.leaf),
    ((List.range p.1.heap.fresh).filter fun a => (p.1.heap.node a).isSome).length, p.2)

instance : DecidableEq (Leaf Int) := inferInstanceAs (DecidableEq (Int × Int))
instance : DecidableEq (Out Int) := inferInstanceAs (DecidableEq (Option (Leaf Int) × Bool))

/-- `C62_memory_refines`: the list model runs the program -/
example : shown (listRun 0 (fun _ => none) demoCalls) = .ok
    ([some [(0, 0), (100, 0)], none, some [(0, 0), (10, 5), (20, 7), (55, 0), (100, 0)],
      some [(0, 0), (10, 5), (12, 7), (32, 0), (100, 0)]],
     [(none, false), (some (10, 5), true), (some (20, 7), true), (some (15, 7), true), (none, false), (none, false),
      (none, false), (none, false), (none, false), (none, false), (none, false), (none, false), (none, false),
      (none, false)]) := by decide +kernel

/-- and this is what the memory looks like then: twelve nodes for the twelve leaves -/
example : (seen (memRun 0 Mem.start demoCalls)).map (fun r => (r.1, r.2.2.1)) = .ok
    ([some [some (0, 0), some (100, 0)], some [],
      some [some (0, 0), some (10, 5), some (20, 7), some (55, 0), some (100, 0)],
      some [some (0, 0), some (10, 5), some (12, 7), some (32, 0), some (100, 0)]], 12) := by decide +kernel

/-- `C62_no_leak`: everything destroyed, no node left -/
example : (shown (listRun 0 (fun _ => none) demoDestroy)).map (·.1) = .ok [none, none, none, none] := by decide +kernel
example : (seen (memRun 0 Mem.start demoDestroy)).map (·.2.2.1) = .ok 0 := by decide +kernel

theorem LegalRun.cons {dv : Int} {S S1 : Objs Int} {c : Call Int} {out : Out Int} {cs : List (Call Int)}
    (h : Legal S c) (e : listStep dv S c = .ok (S1, out)) (h1 : LegalRun dv S1 cs) : LegalRun dv S (c :: cs) :=
  ⟨h, fun S' o' e' => by rw [e] at e'; cases e'; exact h1⟩

/-- `C62_no_fault`, `leaves_two`: a legal program -/
example : LegalRun (0 : Int) (fun _ => none)
    [.make 0 0 100 0, .insert 0 10 20 5 true, .copy 1 0, .insertAt 1 (some 1) 15 25 7, .shiftLeft 1 12 30,
     .move 2 0, .assignCopy 0 1, .swap 1 2, .destroy 1] := by
  refine .cons ⟨rfl, by decide⟩ rfl ?_
  refine .cons ⟨_, _, rfl, rfl, by decide⟩ rfl ?_
  refine .cons ⟨rfl, _, rfl, by decide⟩ rfl ?_
  refine .cons ⟨_, _, rfl, rfl, by decide, fun i hi => by cases hi; decide⟩ rfl ?_
  refine .cons ⟨_, rfl, by decide⟩ rfl ?_
  refine .cons ⟨rfl, by decide⟩ rfl ?_
  refine .cons ⟨by decide, _, rfl, by decide⟩ rfl ?_
  refine .cons ⟨by decide, by decide⟩ rfl ?_
  refine .cons (by decide : _ ≠ _) rfl ?_
  trivial

/-- The range the legality condition leaves out really ends in a null pointer being followed. -/
theorem C62_no_fault_fails :
    memRun (0 : Int) Mem.start [.make 0 0 100 0, .insert 0 (-5) 0 5 true] matches .ub := by decide +kernel

end Mdds.FST.Mem
