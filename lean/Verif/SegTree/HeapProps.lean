import Verif.SegTree.HeapStep
import Verif.FST.HeapProps

/-!
# C69, C70: memory of segment_tree

`Heap.lean` runs programs with any number of containers and search results on a memory of nodes,
pools and pointers.  `HeapSpec.lean` says, without memory, which calls are allowed and what they
return.

* C69: a program that keeps to the allowed calls never follows a null or dangling pointer, never
  takes more nodes from a pool than it has, and returns what it should; memory then shows exactly
  the containers: their leaves when the links are followed in either direction, pools of exactly
  as many nodes as the tree has, nothing shared and nothing leaked.
* C70: how long the result of a search may be used.
-/
namespace Mdds.SegTree.Mem

open Mdds.FST.Mem hiding Path Mem

variable {V : Type}

/-! ## What memory should look like -/

/-- Number of non-leaf nodes. -/
def nonleaves : Tree → Nat
  | .bot1 .. => 1
  | .bot2 .. => 1
  | .one _ _ _ a => nonleaves a + 1
  | .two _ _ _ a b => nonleaves a + nonleaves b + 1

/-- The leaves of a container from left to right, following `next`. -/
def leavesFwd (m : Mem V) (o : Nat) : Option (List Nat) := walk m.lh (·.next) m.lh.fresh (m.lh.root (.left o))

/-- The leaves of a container from right to left, following `prev`. -/
def leavesBwd (m : Mem V) (o : Nat) : Option (List Nat) := walk m.lh (·.prev) m.lh.fresh (m.lh.root (.right o))

/-- The node at `p` is an element of the container's pool. -/
def InPool (m : Mem V) (o p : Nat) : Prop := ∃ ob, m.obj o = some ob ∧ ob.base ≤ p ∧ p < ob.base + ob.size

/-- Memory shows exactly the containers of the world. -/
structure Intact (m : Mem V) (w : World V) : Prop where
  /-- the containers that exist -/
  alive : ∀ o, (m.obj o).isSome = (w.slot o).alive
  /-- the segments of a container, and whether its tree is valid -/
  store : ∀ o st ob, w.slot o = .live st → m.obj o = some ob → ob.store = st.store ∧ ob.valid = st.valid
  /-- following the links in either direction gives the leaves -/
  leaves : ∀ o, ∃ as, leavesFwd m o = some as ∧ leavesBwd m o = some as.reverse ∧ as.Nodup ∧
    as.map (fun a => (m.lh.node a).map (·.key)) = (w.slot o).val.leaves.map some
  /-- containers do not share leaves -/
  leavesApart : ∀ o p as bs, o ≠ p → leavesFwd m o = some as → leavesFwd m p = some bs → ∀ a ∈ as, a ∉ bs
  /-- a leaf that has not been deleted belongs to a container -/
  leavesOwned : ∀ a, m.lh.node a ≠ none → ∃ o as, (w.slot o).alive ∧ leavesFwd m o = some as ∧ a ∈ as
  /-- the reference count of a leaf is the number of places that point to it -/
  counts : ∀ a n, m.lh.node a = some n →
    ∃ places : List Loc, places.Nodup ∧ (∀ l, l ∈ places ↔ m.lh.read l = some a) ∧ n.rc = places.length
  /-- non-leaf nodes are alive exactly when they are in the pool of a container -/
  pool : ∀ p, m.nl p ≠ none ↔ ∃ o, InPool m o p
  /-- containers do not share pools -/
  poolApart : ∀ o o' p, o ≠ o' → InPool m o p → ¬ InPool m o' p
  /-- the pool has exactly as many nodes as the tree -/
  exact : ∀ o st t ob, w.slot o = .live st → st.root = some t → m.obj o = some ob → ob.size = nonleaves t

/-! ## Proofs -/

theorem nonleaves_view (ch : Ptr → Chain) (S : Shape) : nonleaves (view ch S) = S.inners.length := by
  induction S with
  | bot1 => rfl
  | bot2 => rfl
  | one p l h s ih => simp [view, nonleaves, Shape.inners, ih]
  | two p l h s t ihs iht => simp [view, nonleaves, Shape.inners, ihs, iht]

theorem SRel.aliveEq {dv : V} {W : Nat → Chain} {K : Nat → Int} {nl : Nat → Option Inner} {as : List Nat} {ob : Option (Obj V)}
    {s : Slot V} (h : SRel dv W K nl as ob s) : ob.isSome = s.alive := by
  match ob, s, h with
  | none, .dead, _ => rfl
  | some _, .moved, _ => rfl
  | some _, .live _, _ => rfl

theorem SRel.leavesEq {dv : V} {W : Nat → Chain} {K : Nat → Int} {nl : Nat → Option Inner} {as : List Nat} {ob : Option (Obj V)}
    {s : Slot V} (h : SRel dv W K nl as ob s) : as.map K = s.val.leaves ∧ (s.alive = false → as = []) := by
  match ob, s, h with
  | none, .dead, h => have h : as = [] := h; subst h; exact ⟨rfl, fun _ => rfl⟩
  | some _, .moved, h => have h : as = [] := h.2.2.2.2; subst h; exact ⟨rfl, fun _ => rfl⟩
  | some _, .live _, h => exact ⟨h.keys, fun e => by cases e⟩

theorem InOrder.intact {dv : V} {w : World V} {m : Mem V} (h : InOrder dv w.slot w.res m) : Intact m w := by
  obtain ⟨g, C, h⟩ := h
  have hlen : ∀ o, (C o).length ≤ m.lh.fresh := fun o => by rw [h.wld.sat.fr]; exact (h.wld.st o).length_le
  have hf : ∀ o, leavesFwd m o = some (C o) := fun o => by
    unfold leavesFwd
    rw [h.wld.sat.root, h.wld.left]
    exact walk_eq (fun a n hn => (h.wld.sat.node a n hn).1) _ _ (h.wld.fwd _) (fun a ha => h.wld.live ha) (hlen _)
  have hb : ∀ o, leavesBwd m o = some (C o).reverse := fun o => by
    unfold leavesBwd
    rw [h.wld.sat.root, h.wld.right, ← List.head?_reverse]
    exact walk_eq (fun a n hn => (h.wld.sat.node a n hn).2.1) _ _ (h.wld.bwd _)
      (fun a ha => h.wld.live (List.mem_reverse.1 ha)) (by rw [List.length_reverse]; exact hlen _)
  refine ⟨fun o => (h.rel o).aliveEq, fun o st ob hs ho => ?_, fun o => ⟨C o, hf o, hb o, h.wld.nodup o, ?_⟩, ?_, ?_, ?_, ?_, ?_, ?_⟩
  · have := h.rel o
    rw [hs, ho] at this
    exact ⟨CRel.store this, CRel.valid this⟩
  · rw [← (h.rel o).leavesEq.1, List.map_map]
    refine List.map_congr_left fun a ha => ?_
    obtain ⟨n, hn⟩ := Option.isSome_iff_exists.1 (h.wld.live ha)
    simp [hn, (h.wld.sat.node a n hn).2.2.1]
  · intro o p as bs hop h1 h2
    rw [hf] at h1 h2
    cases h1; cases h2
    exact h.wld.disj _ _ hop
  · intro a ha
    obtain ⟨n, hn⟩ := Option.ne_none_iff_exists'.1 ha
    obtain ⟨o, ho⟩ := h.wld.U a (h.wld.sat.node a n hn).2.2.2.2
    refine ⟨o, C o, ?_, hf o, ho⟩
    cases e : (w.slot o).alive with
    | true => rfl
    | false => rw [(h.rel o).leavesEq.2 e] at ho; simp at ho
  · intro a n hn
    obtain ⟨pl, h1, h2, h3⟩ := h.wld.sat.wf.rc a n hn
    exact ⟨pl, h1, h2, by simpa using h3⟩
  · intro p
    constructor
    · intro hp
      obtain ⟨o, ob, ho, hi⟩ := h.only p (Option.isSome_iff_ne_none.2 hp)
      exact ⟨o, ob, ho, hi⟩
    · rintro ⟨o, ob, ho, hi⟩
      exact Option.isSome_iff_ne_none.1 (h.alive o ob ho p hi).1
  · rintro o o' p hne ⟨ob, ho, hi⟩ ⟨ob', ho', hi'⟩
    exact h.apart o o' ob ob' ho ho' hne p hi hi'
  · intro o st t ob hs ht ho
    have := h.rel o
    rw [hs, ho] at this
    obtain ⟨S, tr⟩ := CRel.tree this t ht
    rw [← tr.exact, ← tr.view, nonleaves_view]

variable [DecidableEq V]

/-! ## C69 -/

/-- A program that keeps to the allowed calls never does anything undefined, returns what it
should, and leaves memory intact. -/
theorem C69_memory_refines (dv : V) (cs : List (Cmd V)) {out : List (Ret V)} {w : World V}
    (h : World.empty.run dv cs = some (out, w)) : ∃ m, runP dv cs empty = .ok (out, m) ∧ Intact m w := by
  obtain ⟨r, m, e, rfl, hm⟩ := run_ok (inOrder_empty dv) rfl h
  exact ⟨m, e, hm.intact⟩

/-- When all containers have been destroyed, no node is left. -/
theorem C69_no_leak (dv : V) (cs : List (Cmd V)) {out : List (Ret V)} {w : World V}
    (h : World.empty.run dv cs = some (out, w)) (hd : ∀ o, w.slot o = .dead) :
    ∃ m, runP dv cs empty = .ok (out, m) ∧ (∀ a, m.lh.node a = none) ∧ ∀ p, m.nl p = none := by
  obtain ⟨m, e, hm⟩ := C69_memory_refines dv cs h
  refine ⟨m, e, fun a => ?_, fun p => ?_⟩
  · by_contra ha
    obtain ⟨o, _, ho, _⟩ := hm.leavesOwned a ha
    rw [hd o] at ho
    cases ho
  · by_contra hp
    obtain ⟨o, ob, ho, _⟩ := (hm.pool p).1 hp
    have := hm.alive o
    rw [ho, hd o] at this
    cases this

/-- A program that uses every kind of call. -/
def demo : List (Cmd Int) :=
  [.construct 1, .insert 1 0 10 5, .insert 1 3 7 6, .insert 1 20 4 8, .build 1, .search 0 1 4, .read 0, .copy 2 1, .insert 1 4 6 7,
   .read 0, .erase 2 0 0, .swap 1 2]

/-- `C69_memory_refines`: the world runs a program; the answers -/
example : (World.empty.run (0 : Int) (demo.take 10)).map (·.1) = some
    [.nothing, .flag true, .flag true, .flag false, .nothing, .nothing, .segs [⟨0, 10, 5⟩, ⟨3, 7, 6⟩], .nothing, .flag true,
     .segs [⟨0, 10, 5⟩, ⟨3, 7, 6⟩]] := by decide +kernel

/-- a result of one container is not an iterator of another: the call after that is not allowed -/
example : (World.empty.run (0 : Int) demo).isNone := by decide +kernel

/-- moves, assignments, swap, erasing and clearing -/
example : (World.empty.run (0 : Int)
    [.construct 1, .insert 1 0 10 5, .insert 1 3 7 6, .insert 1 3 20 7, .build 1, .move 2 1, .assignCopy 1 2, .search 0 1 4, .erase 1 0 0,
     .leafSize 1, .eraseIf 2 (fun s => decide (s.value = 6)), .search 3 2 4, .swap 1 2, .check 1, .check 2, .search 0 2 4, .read 0,
     .assignMove 1 2, .check 2, .clear 2, .insert 2 1 2 9, .build 2, .search 5 2 1, .read 5]).map (·.1) = some
    [.nothing, .flag true, .flag true, .flag true, .nothing, .nothing, .nothing, .nothing, .nothing, .count 5, .count 1, .nothing,
     .nothing, .flag true, .flag true, .nothing, .segs [⟨3, 7, 6⟩, ⟨3, 20, 7⟩], .nothing, .flag true, .nothing, .flag true, .nothing,
     .nothing, .segs [⟨1, 2, 9⟩]] := by decide +kernel

/-- `C69_no_leak`: two containers, one of them moved from, destroyed again -/
example : ∃ out w, World.empty.run (0 : Int)
    [.construct 1, .insert 1 0 10 5, .build 1, .move 2 1, .destruct 1, .destruct 2] = some (out, w) ∧ ∀ o, w.slot o = .dead := by
  refine ⟨_, _, rfl, fun o => ?_⟩
  by_cases h2 : o = 2
  · subst h2; rfl
  by_cases h1 : o = 1
  · subst h1; rfl
  simp [World.empty, World.set, World.step, upd, h1, h2]

/-- Not every program of calls on live containers is safe: `check_integrity` follows dangling pointers after the
last segments were erased and the tree was built again (`build_tree` returns early and keeps
`m_tagged_nodes_map`). -/
theorem C69_check_fails :
    runP (0 : Int) [.construct 1, .insert 1 0 10 5, .build 1, .insert 1 3 7 6, .eraseIf 1 (fun _ => true), .build 1, .check 1]
      empty matches .ub := by decide +kernel

/-- The source of a move keeps its root pointer: searching it after the target has gone follows a
dangling pointer. -/
theorem C69_moved_from_fails :
    runP (0 : Int) [.construct 1, .insert 1 0 10 5, .build 1, .move 2 1, .destruct 2, .search 0 1 4] empty matches .ub := by
  decide +kernel

/-! ## C70 -/

/-- Calls that leave the result `x` of a search in container `o` as it is: calls that do not change
`o`, and `insert` even if it does. -/
def Keeps (o x : Nat) : Cmd V → Prop
  | .construct _ => True
  | .copy _ _ => True
  | .insert .. => True
  | .read _ => True
  | .leafSize _ => True
  | .check _ => True
  | .search y _ _ => y ≠ x
  | .destruct p => p ≠ o
  | .build p => p ≠ o
  | .erase p _ _ => p ≠ o
  | .eraseIf p _ => p ≠ o
  | .clear p => p ≠ o
  | .move _ r => r ≠ o
  | .assignCopy p _ => p ≠ o
  | .assignMove p r => p ≠ o ∧ r ≠ o
  | .swap a b => a ≠ o ∧ b ≠ o

/-- The result is still there, and the segments it refers to are still in the store. -/
def Holds (o x : Nat) (is : List Nat) (store : List (Seg V)) (w : World V) : Prop :=
  w.res x = some (o, is) ∧ ∃ st, w.slot o = .live st ∧ store <+: st.store

omit [DecidableEq V] in
theorem inval_other {o p x : Nat} {is : List Nat} {rs : Nat → Option (Nat × List Nat)} (h : rs x = some (o, is)) (hp : p ≠ o) :
    inval p rs x = some (o, is) := by
  simp [inval, h, Ne.symm hp]

omit [DecidableEq V] in
theorem Holds.set {o x p : Nat} {is : List Nat} {store : List (Seg V)} {w : World V} (h : Holds o x is store w) (hp : p ≠ o)
    (s : Slot V) : Holds o x is store (w.set p s) :=
  ⟨inval_other h.1 hp, by obtain ⟨st, h1, h2⟩ := h.2; exact ⟨st, by rw [← h1]; exact upd_ne _ _ (Ne.symm hp), h2⟩⟩

theorem Holds.step {dv : V} {o x : Nat} {is : List Nat} {store : List (Seg V)} {w w' : World V} {c : Cmd V} {r : Ret V}
    (h : Holds o x is store w) (hk : Keeps o x c) (e : w.step dv c = some (r, w')) : Holds o x is store w' := by
  have ⟨h1, st, hs, hp⟩ := h
  have hal : (w.slot o).alive = true := by rw [hs]; rfl
  have slot1 : ∀ {p : Nat} {s : Slot V}, (w.slot p).alive = false → upd w.slot p s o = .live st := fun {p s} hp => by
    rw [← hs]; exact upd_ne _ _ fun e => by rw [← e, hal] at hp; cases hp
  cases c with
  | construct p =>
    simp only [World.step] at e; split at e
    · next hc => cases e; exact ⟨h1, st, slot1 hc.2, hp⟩
    · cases e
  | destruct p =>
    simp only [World.step] at e; split at e
    · cases e; exact h.set hk _
    · cases e
  | copy p r =>
    simp only [World.step] at e; split at e
    · next hc => cases e; exact ⟨h1, st, slot1 hc.2.1, hp⟩
    · cases e
  | move p r =>
    simp only [World.step] at e; split at e
    · next hc =>
      cases e
      refine ⟨inval_other h1 hk, st, ?_, hp⟩
      show upd _ _ _ _ = _
      rw [upd_ne _ _ (Ne.symm hk)]; exact slot1 hc.2.1
    · cases e
  | assignCopy p r =>
    simp only [World.step] at e; split at e
    · cases e; exact h.set hk _
    · cases e
  | assignMove p r =>
    simp only [World.step] at e; split at e
    · cases e
      refine ⟨inval_other (inval_other h1 hk.2) hk.1, st, ?_, hp⟩
      show upd _ _ _ _ = _
      rw [upd_ne _ _ (Ne.symm hk.1), upd_ne _ _ (Ne.symm hk.2)]; exact hs
    · cases e
  | swap a b =>
    simp only [World.step] at e; split at e
    · cases e
      refine ⟨inval_other (inval_other h1 hk.2) hk.1, st, ?_, hp⟩
      show upd _ _ _ _ = _
      rw [upd_ne _ _ (Ne.symm hk.2), upd_ne _ _ (Ne.symm hk.1)]; exact hs
    · cases e
  | insert p s t v =>
    simp only [World.step] at e; split at e
    · split at e
      · next st' hi =>
        cases e
        by_cases hpo : p = o
        · subst hpo
          refine ⟨h1, st', upd_same .., ?_⟩
          rw [hs] at hi
          simp only [Slot.val, Mdds.SegTree.insert] at hi
          split at hi
          · cases hi
          · cases hi; exact hp.trans (List.prefix_append _ _)
        · exact ⟨h1, st, by rw [← hs]; exact upd_ne _ _ (Ne.symm hpo), hp⟩
      · cases e; exact h
    · cases e
  | build p =>
    simp only [World.step] at e; split at e
    · cases e; exact h.set hk _
    · cases e
  | search y p pt =>
    simp only [World.step] at e; split at e
    · cases e; exact ⟨by rw [← h1]; exact upd_ne _ _ (Ne.symm hk), st, hs, hp⟩
    · cases e
  | read y =>
    simp only [World.step] at e; split at e
    · cases e; exact h
    · cases e
  | erase p y k =>
    simp only [World.step] at e
    split at e
    · split at e
      · split at e
        · split at e
          · cases e; exact h.set hk _
          · cases e; exact h
        · cases e
      · cases e
    · cases e
  | eraseIf p pred =>
    simp only [World.step] at e
    split at e
    · split at e
      · cases e; exact h.set hk _
      · cases e; exact h
    · cases e; exact h.set hk _
    · cases e
  | clear p =>
    simp only [World.step] at e; split at e
    · cases e; exact h.set hk _
    · cases e
  | leafSize p =>
    simp only [World.step] at e; split at e
    · cases e; exact h
    · cases e
  | check p =>
    simp only [World.step] at e
    split at e
    · split at e
      · cases e; exact h
      · cases e
    · cases e; exact h
    · cases e

theorem Holds.run {dv : V} {o x : Nat} {is : List Nat} {store : List (Seg V)} {ds : List (Cmd V)} : ∀ {w w' : World V}
    {out : List (Ret V)}, Holds o x is store w → (∀ c ∈ ds, Keeps o x c) → w.run dv ds = some (out, w') → Holds o x is store w' := by
  induction ds with
  | nil => intro w w' out h _ e; cases e; exact h
  | cons c cs ih =>
    intro w w' out h hk e
    simp only [World.run] at e
    cases es : w.step dv c with
    | none => rw [es] at e; cases e
    | some y =>
      rw [es] at e
      simp only [Option.map_eq_some_iff] at e
      obtain ⟨⟨out1, w2⟩, e1, e2⟩ := e
      cases e2
      exact ih (h.step (hk c (by simp)) es) (fun d hd => hk d (by simp [hd])) e1

theorem run_append {dv : V} (cs ds : List (Cmd V)) : ∀ {w w1 w2 : World V} {out1 out2 : List (Ret V)},
    w.run dv cs = some (out1, w1) → w1.run dv ds = some (out2, w2) → w.run dv (cs ++ ds) = some (out1 ++ out2, w2) := by
  induction cs with
  | nil => intro w w1 w2 out1 out2 h1 h2; cases h1; exact h2
  | cons c cs ih =>
    intro w w1 w2 out1 out2 h1 h2
    simp only [World.run, List.cons_append] at h1 ⊢
    cases es : w.step dv c with
    | none => rw [es] at h1; cases h1
    | some y =>
      rw [es] at h1
      simp only [Option.map_eq_some_iff] at h1
      obtain ⟨⟨out3, w3⟩, e1, e2⟩ := h1
      cases e2
      simp only [ih e1 h2, Option.map_some, List.cons_append]

omit [DecidableEq V] in
theorem mapM_prefix {s s' : List (Seg V)} (h : s <+: s') : ∀ (is : List Nat) (l : List (Seg V)), is.mapM (s[·]?) = some l →
    is.mapM (s'[·]?) = some l
  | [], l, e => e
  | i :: is, l, e => by
    rw [List.mapM_cons] at e ⊢
    cases e1 : s[i]? with
    | none => rw [e1] at e; cases e
    | some a =>
      have e1' : s'[i]? = some a := by
        obtain ⟨t, rfl⟩ := h
        rw [List.getElem?_append_left (List.getElem?_eq_some_iff.1 e1).1]; exact e1
      cases e2 : is.mapM (s[·]?) with
      | none => rw [e1] at e; simp [e2] at e
      | some l' =>
        rw [e1] at e
        rw [e1']
        simp only [e2, mapM_prefix h is l' e2] at e ⊢
        exact e

/-- A search in a valid tree finds the segments that contain the point, and the result shows these
segments for as long as only calls that keep it are made: other containers may be used
at will, more segments may be inserted, and further searches made. -/
theorem C70_results_last_partial (dv : V) (cs ds : List (Cmd V)) (o x : Nat) (pt : Int) {out out' : List (Ret V)} {w w' : World V}
    {st : State V} (h : World.empty.run dv cs = some (out, w)) (ho : w.slot o = .live st) (hv : st.valid = true)
    (hk : ∀ c ∈ ds, Keeps o x c) (h' : World.empty.run dv (cs ++ .search x o pt :: ds) = some (out', w')) :
    ∃ l m, runP dv (cs ++ .search x o pt :: ds ++ [.read x]) empty = .ok (out' ++ [.segs l], m) ∧
      l.Perm (stab (live dv st) pt) := by
  obtain ⟨_, m0, _, _, g, C, hm0⟩ := run_ok (inOrder_empty dv) rfl h
  obtain ⟨ob, hob, _⟩ := (hm0.rel o).base (by rw [ho]; rfl)
  have hrel := hm0.rel o
  rw [ho, hob] at hrel
  obtain ⟨l, hl, hperm⟩ := found_perm (CRel.inv hrel) hv pt
  -- the world after the search
  have hsplit : ∃ out2, World.run dv ⟨w.slot, upd w.res x (some (o, (Mdds.SegTree.search st pt).flatten))⟩ ds = some (out2, w') := by
    have key : ∀ (bs : List (Cmd V)) (u : World V) (o1 : List (Ret V)), u.run dv bs = some (o1, w) →
        ∀ o2, u.run dv (bs ++ .search x o pt :: ds) = some (o2, w') →
        ∃ out2, World.run dv ⟨w.slot, upd w.res x (some (o, (Mdds.SegTree.search st pt).flatten))⟩ ds = some (out2, w') := by
      intro bs
      induction bs with
      | nil =>
        intro u o1 e1 o2 e2
        cases e1
        simp only [List.nil_append, World.run, World.step, ho, Option.map_eq_some_iff] at e2
        obtain ⟨⟨out3, w3⟩, e3, e4⟩ := e2
        cases e4
        exact ⟨out3, e3⟩
      | cons b bs ih =>
        intro u o1 e1 o2 e2
        simp only [World.run, List.cons_append] at e1 e2
        cases es : u.step dv b with
        | none => rw [es] at e1; cases e1
        | some y =>
          rw [es] at e1 e2
          simp only [Option.map_eq_some_iff] at e1 e2
          obtain ⟨⟨_, _⟩, e3, e4⟩ := e1
          obtain ⟨⟨_, _⟩, e5, e6⟩ := e2
          cases e4; cases e6
          exact ih _ _ e3 _ e5
    exact key cs _ _ h _ h'
  obtain ⟨out2, h2⟩ := hsplit
  have hh : Holds o x (Mdds.SegTree.search st pt).flatten st.store w' :=
    Holds.run (w := ⟨w.slot, upd w.res x (some (o, (Mdds.SegTree.search st pt).flatten))⟩) ⟨upd_same .., st, ho, List.prefix_refl _⟩ hk h2
  obtain ⟨hr, st', hs', hpre⟩ := hh
  have hread : w'.run dv [.read x] = some ([.segs ((Mdds.SegTree.search st pt).flatten.filterMap (st'.store[·]?))], w') := by
    simp [World.run, World.step, hr, hs', Slot.val]
  obtain ⟨m, em, _⟩ := C69_memory_refines dv _ (run_append _ _ h' hread)
  refine ⟨_, m, em, ?_⟩
  have : (Mdds.SegTree.search st pt).flatten.filterMap (st'.store[·]?) = l := by
    exact filterMap_of_mapM _ _ (mapM_prefix hpre _ _ hl)
  rw [this]
  exact hperm

/-- `C70_results_last_partial`: the tree is changed by `insert`, another container by everything -/
example : ∃ cs ds out w st out' w', World.empty.run (0 : Int) cs = some (out, w) ∧ w.slot 1 = .live st ∧ st.valid = true ∧
    stab (live 0 st) 4 = [⟨0, 10, 5⟩, ⟨3, 7, 6⟩] ∧ (∀ c ∈ ds, Keeps 1 0 c) ∧ ds.length = 5 ∧
    World.empty.run 0 (cs ++ .search 0 1 4 :: ds) = some (out', w') := by
  refine ⟨[.construct 1, .construct 2, .insert 1 0 10 5, .insert 1 3 7 6, .insert 1 8 9 1, .build 1],
    [.insert 1 4 5 8, .copy 3 1, .swap 3 2, .clear 3, .search 1 2 4], _, _, _, _, _, rfl, rfl, by decide +kernel, by decide +kernel, ?_,
    rfl, rfl⟩
  intro c hc
  simp only [List.mem_cons, List.not_mem_nil, or_false] at hc
  rcases hc with rfl | rfl | rfl | rfl | rfl <;> simp [Keeps]

/-- Erasing through a result while it is in use: reading it afterwards is undefined. -/
theorem C70_erase_fails :
    runP (0 : Int) [.construct 1, .insert 1 0 10 5, .build 1, .search 0 1 4, .erase 1 0 0, .read 0] empty matches .ub := by
  decide +kernel

/-- What the last call of a program returned. -/
def lastAnswer : Outcome (List (Ret V) × Mem V) → Option (Ret V)
  | .ok (out, _) => out.getLast?
  | _ => none

/-- After `swap` a result refers to the nodes of one container and the segments of the other: it shows
a segment that does not contain the point. -/
theorem C70_swap_fails :
    lastAnswer (runP (0 : Int) [.construct 1, .construct 2, .insert 1 0 10 5, .build 1, .search 0 1 4, .insert 2 7 8 9, .swap 1 2, .read 0]
      empty) = some (.segs [⟨7, 8, 9⟩]) ∧ (⟨7, 8, 9⟩ : Seg Int).contains 4 = false := by decide +kernel

end Mdds.SegTree.Mem
