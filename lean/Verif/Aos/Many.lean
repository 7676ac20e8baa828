import Verif.Aos.Blind
import Verif.Aos.Exact
import Verif.Mtv.CowProps

/-!
# Any number of array-of-structures containers: copies, clones, moves

The world of `Mtv/Cow.lean`: containers over a heap of element blocks.  The array-of-structures implementation has no
copy-on-write, so a container never has a holder.  Line numbers are those of `aos/main_def.inl`.  The simplifications
of `Mtv/Cow.lean` apply.  The copies that a throwing copy constructor leaves behind cannot be reached by anyone any
more; they are taken out of the heap and written to a list of lost blocks.
-/

namespace Mdds.Aos
open Mdds Mdds.Mtv Mdds.Mtv.Cow

variable {α β : Type}

/-- Element blocks nobody owns. -/
abbrev Lost (α : Type) := List (Ty × List α)

/-- The loop of the copy constructor (312-318) over blocks of which some cannot be copied: `none` when all are copied,
otherwise the copies made before `copy_block` throws. -/
def copiedBefore (p : Ty → Bool) : List (Blk α) → Option (Lost α)
  | [] => none
  | b :: bs =>
    match b.data with
    | none => copiedBefore p bs
    | some d => if p d.ty then (copiedBefore p bs).map ((d.ty, d.vals) :: ·) else some []

/-- The copy constructor 307-324.  When it throws, the members are destroyed but not the blocks copied so far (the
destructor of the container does not run; `block` 75-93 of `aos/main.hpp` does not own its data). -/
def copyMany (T : Traits) (i : Nat) (w : World α) : Out α × Lost α :=
  match w.get i with
  | none => (.ub, [])
  | some c =>
    match loadBlocks w.heap c.slots with
    | none => (.ub, [])
    | some bs =>
      match copiedBefore T.copyable bs with
      | none => (.ok (pushOwned bs c.cur (·.map Ev.acq) w), [])
      | some l => (.err .elementBlock w, l)

/-- `clone` 342-346 with the constructor 270-305, which deletes the clones made so far when it throws. -/
def cloneMany (T : Traits) (i : Nat) (w : World α) : Out α :=
  match w.get i with
  | none => .ub
  | some c =>
    match loadBlocks w.heap c.slots with
    | none => .ub
    | some bs =>
      match copiedBefore T.clonable bs with
      | none => .ok (pushOwned bs c.cur (·.map Ev.acq) w)
      | some _ => .err .elementBlock w

/-- The move constructor 327-335. -/
def moveMany (i : Nat) (w : World α) : Out α :=
  match w.get i with
  | none => .ub
  | some c => .ok { w with ctrs := w.ctrs.set i (some ⟨[], c.cur, [], none⟩) ++ [some c] }

/-- `swap(other)` 4376-4382. -/
def swapMany (i j : Nat) (w : World α) : Out α :=
  match w.get i, w.get j with
  | some c, some d => .ok { w with ctrs := (w.ctrs.set i (some d)).set j (some c) }
  | _, _ => .ub

/-- The destructor 337-340. -/
def destroyMany (i : Nat) (w : World α) : Out α :=
  match w.get i with
  | none => .ub
  | some c =>
    match freeAll (addrs c.slots) w.heap with
    | none => .ub
    | some hp => .ok { w with
        ctrs := w.ctrs.set i none
        logs := w.logs ++ [c.evs ++ (addrs c.slots).map Ev.rel]
        heap := hp }

/-- 4520-4523, 4529-4532: exchange with the local container made last, and destroy that one. -/
def swapLastMany (i n : Nat) (w : World α) : Out α :=
  ((swapMany i n w).bind (destroyMany n)).bind fun w => .ok { w with ctrs := w.ctrs.take n }

/-- The constructors 225-268. -/
def constructMany (k : Ctor α) (w : World α) : Out α :=
  match ctorRun k with
  | .ok s => .ok (pushOwned s.blocks s.cur (fun _ => s.evs) w)
  | .err e => .err e w
  | .ub => .ub

/-- A modifying call.  A call that ends before it looks at the blocks (range `set` 607-616, 651-659; `erase` 2805-2808;
`insert_empty` 3021-3025, 3060-3065) leaves them where they are. -/
def callMany (i : Nat) (c : Call α) (w : World α) : Out α :=
  match w.get i with
  | none => .ub
  | some k =>
    match early k.cur c with
    | some none => .ok w
    | some (some e) => .err e w
    | none => runOwned i (callRun c) w

/-- `transfer` 1760-1861. -/
def transferMany (i j : Nat) (h : At) (first last dest : Nat) (w : World α) : Out α :=
  if i = j then
    match h with
    | none => .err .invalidArg w
    | some _ => runOwned i (transferSelf h first last dest) w
  else runOwned2 i j (Aos.transfer h first last dest) w

/-- Range `swap` 4384-4410. -/
def swapRangeMany (i j : Nat) (first last dest : Nat) (w : World α) : Out α :=
  match w.get i, w.get j with
  | some c, some d =>
    if first > last ∨ last ≥ c.cur ∨ dest + last - first ≥ d.cur then .err .outOfRange w
    else runOwned2 i j (Aos.swapRange first last dest) w
  | _, _ => .ub

/-- A step on the array-of-structures implementation, and the blocks it loses.  There is no `detach`; in
a history meant for both implementations it does nothing here. -/
def stepMany (T : Traits) : Step α → World α → Out α × Lost α
  | .construct k, w => (constructMany k w, [])
  | .copy i, w => copyMany T i w
  | .clone i, w => (cloneMany T i w, [])
  | .move i, w => (moveMany i w, [])
  | .assign i j, w => ((copyMany T j w).1.bind (swapLastMany i w.ctrs.length), (copyMany T j w).2)
  | .moveAssign i j, w => ((moveMany j w).bind (swapLastMany i w.ctrs.length), [])
  | .swap i j, w => (swapMany i j w, [])
  | .destroy i, w => (destroyMany i w, [])
  | .call i c, w => (callMany i c w, [])
  | .detach i, w => (if (w.get i).isSome then .ok w else .ub, [])
  | .transfer i j h a e d, w => (transferMany i j h a e d w, [])
  | .swapRange i j a e d, w => (swapRangeMany i j a e d w, [])

/-- A history with the exceptions that were thrown, one entry for each step. -/
def runMany (T : Traits) : List (Step α) → World α → List (Option Err) × Option (World α × Lost α)
  | [], w => ([], some (w, []))
  | c :: cs, w =>
    match stepMany T c w with
    | (.ok w', l) => (none :: (runMany T cs w').1, (runMany T cs w').2.map fun p => (p.1, l ++ p.2))
    | (.err e w', l) => (some e :: (runMany T cs w').1, (runMany T cs w').2.map fun p => (p.1, l ++ p.2))
    | (.ub, _) => ([], none)

/-- The same for the structure-of-arrays implementation (`runSteps` with the exceptions). -/
def traceSteps (T : Traits) : List (Step α) → World α → List (Option Err) × Option (World α)
  | [], w => ([], some w)
  | c :: cs, w =>
    match c.run T w with
    | .ok w' => (none :: (traceSteps T cs w').1, (traceSteps T cs w').2)
    | .err e w' => (some e :: (traceSteps T cs w').1, (traceSteps T cs w').2)
    | .ub => ([], none)

theorem traceSteps_eq (T : Traits) (cs : List (Step α)) : ∀ w : World α, (traceSteps T cs w).2 = runSteps T cs w := by
  induction cs with
  | nil => intro w; rfl
  | cons c cs ih =>
    intro w
    simp only [traceSteps, runSteps]
    cases c.run T w with
    | ok w' => exact ih w'
    | err e w' => exact ih w'
    | ub => rfl

/-! ### Worlds alike up to the blocks named in event logs -/

/-- What is the same. -/
def blankC (c : Ctr) : List Slot × Nat × List Bool × Option Nat := (c.slots, c.cur, c.evs.map kind, c.holder)

/-- No container has a holder. -/
def Own (xs : List (Option Ctr)) : Prop := ∀ (i : Nat) (c : Ctr), (xs[i]?).join = some c → c.holder = none

/-- Two worlds nobody can tell apart, except by the block named in an event; no container shares blocks. -/
structure Like (a w : World α) : Prop where
  heap : a.heap = w.heap
  next : a.next = w.next
  ctrs : a.ctrs.map (Option.map blankC) = w.ctrs.map (Option.map blankC)
  logs : a.logs.map (List.map kind) = w.logs.map (List.map kind)
  own : Own w.ctrs

def LikeOut : Out α → Out α → Prop
  | .ok a, .ok w => Like a w
  | .err e a, .err e' w => e = e' ∧ Like a w
  | .ub, .ub => True
  | _, _ => False

theorem LikeOut.bind {x y : Out α} {f g : World α → Out α} (h : LikeOut x y) (hf : ∀ a w, Like a w → LikeOut (f a) (g w)) :
    LikeOut (x.bind f) (y.bind g) := by
  cases x <;> cases y <;> simp only [LikeOut, Out.bind] at h ⊢
  · exact hf _ _ h
  · exact h

theorem get_map (w : World α) (i : Nat) : ((w.ctrs.map (Option.map blankC))[i]?).join = (w.get i).map blankC := by
  simp only [World.get, List.getElem?_map]
  cases w.ctrs[i]? with
  | none => rfl
  | some x => cases x <;> rfl

/-- Containers of the same name. -/
theorem Like.get {a w : World α} (h : Like a w) (i : Nat) :
    (a.get i = none ∧ w.get i = none) ∨ ∃ c d, a.get i = some c ∧ w.get i = some d ∧ c.slots = d.slots ∧ c.cur = d.cur ∧
      c.evs.map kind = d.evs.map kind ∧ c.holder = none ∧ d.holder = none := by
  have e : (a.get i).map blankC = (w.get i).map blankC := by rw [← get_map, ← get_map, h.ctrs]
  cases ha : a.get i <;> cases hw : w.get i <;> rw [ha, hw] at e
  · exact Or.inl ⟨rfl, rfl⟩
  · cases e
  · cases e
  · rename_i c d
    have := h.own i d hw
    simp only [Option.map_some, blankC, Option.some.injEq, Prod.mk.injEq] at e
    exact Or.inr ⟨c, d, rfl, rfl, e.1, e.2.1, e.2.2.1, by rw [e.2.2.2, this], this⟩

theorem Like.length {a w : World α} (h : Like a w) : a.ctrs.length = w.ctrs.length := by
  have := congrArg List.length h.ctrs
  simpa using this

theorem Like.init : Like (World.init : World α) World.init := ⟨rfl, rfl, rfl, rfl, fun i c h => by simp [World.get, World.init] at h⟩

theorem own_set {xs : List (Option Ctr)} {i : Nat} {x : Option Ctr} (h : Own xs)
    (hx : ∀ c, x = some c → c.holder = none) : Own (xs.set i x) := by
  intro j c hj
  rw [List.getElem?_set] at hj
  split at hj
  · split at hj
    · exact hx c (by simpa using hj)
    · simp at hj
  · exact h j c hj

theorem own_append {xs : List (Option Ctr)} {x : Option Ctr} (h : Own xs)
    (hx : ∀ c, x = some c → c.holder = none) : Own (xs ++ [x]) := by
  intro j c hj
  rw [List.getElem?_append] at hj
  split at hj
  · exact h j c hj
  · rw [List.getElem?_singleton] at hj
    split at hj
    · exact hx c (by simpa using hj)
    · simp at hj

theorem own_take {xs : List (Option Ctr)} {n : Nat} (h : Own xs) : Own (xs.take n) := by
  intro j c hj
  rw [List.getElem?_take] at hj
  split at hj
  · exact h j c hj
  · simp at hj

/-! ### Each step -/

theorem copiedBefore_none (p : Ty → Bool) (bs : List (Blk α)) : copiedBefore p bs = none ↔ allTypes p bs = true := by
  induction bs with
  | nil => simp [copiedBefore, allTypes]
  | cons b bs ih =>
    obtain ⟨q, n, d⟩ := b
    cases d with
    | none => simpa [copiedBefore, allTypes] using ih
    | some d =>
      simp only [copiedBefore]
      by_cases hp : p d.ty = true
      · rw [if_pos hp, Option.map_eq_none_iff, ih]; simp [allTypes, hp]
      · rw [if_neg hp]; simp [allTypes, hp]

theorem like_push {a w : World α} (h : Like a w) (bs : List (Blk α)) (cur : Nat) (f : List Nat → List Ev) :
    Like (pushOwned bs cur f a) (pushOwned bs cur f w) := by
  refine ⟨?_, ?_, ?_, h.logs, ?_⟩
  · simp [pushOwned, h.heap, h.next]
  · simp [pushOwned, h.heap, h.next]
  · simp [pushOwned, h.heap, h.next, h.ctrs]
  · exact own_append (h.own) (fun c hc => by cases hc; rfl)

theorem like_copy (T : Traits) (hT : T.cow = false) {a w : World α} (h : Like a w) (i : Nat) :
    LikeOut (copyMany T i a).1 (copyCtor T i w) := by
  unfold copyMany copyCtor
  rcases h.get i with ⟨h1, h2⟩ | ⟨c, d, h1, h2, hs, hc, he, hh, hh'⟩
  · rw [h1, h2]; trivial
  · simp only [h1, h2, h.heap, hs]
    cases loadBlocks w.heap d.slots with
    | none => trivial
    | some bs =>
      dsimp only
      by_cases hb : allTypes T.copyable bs = true
      · rw [(copiedBefore_none _ _).2 hb, if_pos hb, hT]
        simp only [Bool.false_eq_true, if_false]
        rw [hc]
        exact like_push h _ _ _
      · rw [if_neg hb]
        cases e : copiedBefore T.copyable bs with
        | none => exact absurd ((copiedBefore_none _ _).1 e) hb
        | some l => exact ⟨rfl, h⟩

theorem like_clone (T : Traits) (hT : T.cow = false) {a w : World α} (h : Like a w) (i : Nat) :
    LikeOut (cloneMany T i a) (cloneCtor T i w) := by
  unfold cloneMany cloneCtor
  rcases h.get i with ⟨h1, h2⟩ | ⟨c, d, h1, h2, hs, hc, he, hh, hh'⟩
  · rw [h1, h2]; trivial
  · simp only [h1, h2, h.heap, hs, hT, Bool.false_eq_true, if_false]
    cases loadBlocks w.heap d.slots with
    | none => trivial
    | some bs =>
      dsimp only
      by_cases hb : allTypes T.clonable bs = true
      · rw [(copiedBefore_none _ _).2 hb, if_pos hb, hc]
        exact like_push h _ _ _
      · rw [if_neg hb]
        cases e : copiedBefore T.clonable bs with
        | none => exact absurd ((copiedBefore_none _ _).1 e) hb
        | some l => exact ⟨rfl, h⟩

theorem like_move {a w : World α} (h : Like a w) (i : Nat) : LikeOut (moveMany i a) (moveCtor i w) := by
  unfold moveMany moveCtor
  rcases h.get i with ⟨h1, h2⟩ | ⟨c, d, h1, h2, hs, hc, he, hh, hh'⟩
  · rw [h1, h2]; trivial
  · simp only [h1, h2]
    refine ⟨h.heap, h.next, ?_, h.logs, ?_⟩
    · simp [List.map_set, h.ctrs, blankC, hs, hc, he, hh, hh']
    · exact own_append (own_set h.own (fun c hc => by cases hc; rfl)) (fun c hc => by cases hc; exact hh')

theorem like_swap {a w : World α} (h : Like a w) (i j : Nat) : LikeOut (swapMany i j a) (swapCtrs i j w) := by
  unfold swapMany swapCtrs
  rcases h.get i with ⟨h1, h2⟩ | ⟨c, d, h1, h2, hs, hc, he, hh, hh'⟩
  · rw [h1, h2]; trivial
  · rcases h.get j with ⟨k1, k2⟩ | ⟨c', d', k1, k2, ks, kc, ke, kh, kh'⟩
    · simp only [h1, h2, k1, k2]; trivial
    · simp only [h1, h2, k1, k2]
      refine ⟨h.heap, h.next, ?_, h.logs, ?_⟩
      · simp [List.map_set, h.ctrs, blankC, hs, hc, he, hh, hh', ks, kc, ke, kh, kh']
      · exact own_set (own_set h.own (fun c hc => by cases hc; exact kh')) (fun c hc => by cases hc; exact hh')

theorem like_destroy {a w : World α} (h : Like a w) (i : Nat) : LikeOut (destroyMany i a) (Cow.destroy i w) := by
  unfold destroyMany Cow.destroy
  rcases h.get i with ⟨h1, h2⟩ | ⟨c, d, h1, h2, hs, hc, he, hh, hh'⟩
  · rw [h1, h2]; trivial
  · simp only [h1, h2, hh', hs, h.heap]
    cases freeAll (addrs d.slots) w.heap with
    | none => trivial
    | some hp =>
      refine ⟨rfl, h.next, ?_, ?_, ?_⟩
      · simp [List.map_set, h.ctrs]
      · simp [h.logs, he]
      · exact own_set h.own (fun c hc => by cases hc)

theorem like_swapLast {a w : World α} (h : Like a w) (i n : Nat) : LikeOut (swapLastMany i n a) (swapWithLast i n w) := by
  unfold swapLastMany swapWithLast
  refine ((like_swap h i n).bind fun a w h => like_destroy h n).bind fun a w h => ?_
  refine ⟨h.heap, h.next, ?_, h.logs, own_take h.own⟩
  simp only [List.map_take, h.ctrs]

theorem like_store {a w : World α} (h : Like a w) (i : Nat) {s t : St α} (hst : Alike s t) :
    LikeOut (storeBack i s a) (storeBack i t w) := by
  unfold storeBack
  rcases h.get i with ⟨h1, h2⟩ | ⟨c, d, h1, h2, hs, hc, he, hh, hh'⟩
  · rw [h1, h2]; trivial
  · simp only [h1, h2, hs, h.heap]
    cases freeAll (addrs d.slots) w.heap with
    | none => trivial
    | some hp =>
      dsimp only
      rw [hst.1, h.next]
      refine ⟨rfl, rfl, ?_, h.logs, ?_⟩
      · simp [List.map_set, h.ctrs, blankC, hst.2.1, hst.2.2.2.2, hh, hh']
      · exact own_set h.own (fun c hc => by cases hc; exact hh')

theorem like_load {a w : World α} (h : Like a w) (i : Nat) :
    ((a.get i).bind (load a) = none ∧ (w.get i).bind (load w) = none) ∨
    ∃ s t, (a.get i).bind (load a) = some s ∧ (w.get i).bind (load w) = some t ∧ Alike s t := by
  rcases h.get i with ⟨h1, h2⟩ | ⟨c, d, h1, h2, hs, hc, he, hh, hh'⟩
  · rw [h1, h2]; exact Or.inl ⟨rfl, rfl⟩
  · rw [h1, h2]
    simp only [Option.bind_some, load, hs, h.heap]
    cases loadBlocks w.heap d.slots with
    | none => exact Or.inl ⟨rfl, rfl⟩
    | some bs => exact Or.inr ⟨_, _, rfl, rfl, ⟨rfl, hc, rfl, h.next, he⟩⟩

theorem like_run {a w : World α} (h : Like a w) (i : Nat) {x y : M α β} (hxy : Agree x y) :
    LikeOut (runOwned i x a) (runOwned i y w) := by
  unfold runOwned
  rcases like_load h i with ⟨h1, h2⟩ | ⟨s, t, h1, h2, hst⟩
  · rw [h1, h2]; trivial
  · simp only [h1, h2]
    have := hxy s t hst
    cases hx : x s <;> cases hy : y t <;> rw [hx, hy] at this <;> simp only [AlikeRes] at this
    · exact like_store h i this.2
    · obtain ⟨rfl, h3⟩ := this
      exact (like_store h i h3).bind fun a w h => ⟨rfl, h⟩
    · trivial

theorem like_run2 {a w : World α} (h : Like a w) (i j : Nat) {x y : M2 α β} (hxy : Agree2 x y) :
    LikeOut (runOwned2 i j x a) (runOwned2 i j y w) := by
  unfold runOwned2
  rcases like_load h i with ⟨h1, h2⟩ | ⟨s, t, h1, h2, hst⟩
  · rw [h1, h2]; trivial
  · rcases like_load h j with ⟨k1, k2⟩ | ⟨s', t', k1, k2, hst'⟩
    · simp only [h1, h2, k1, k2]; trivial
    · simp only [h1, h2, k1, k2]
      have := hxy s s' t t' hst hst'
      cases hx : x s s' <;> cases hy : y t t' <;> rw [hx, hy] at this <;> simp only [AlikeRes2] at this
      · exact (like_store h i this.2.1).bind fun a w h => like_store h j this.2.2
      · obtain ⟨rfl, h3, h4⟩ := this
        exact ((like_store h i h3).bind fun a w h => like_store h j h4).bind fun a w h => ⟨rfl, h⟩
      · trivial

/-- Not a hinted `transfer` of a container to itself (finding A2). -/
def Step.Plain : Step α → Prop
  | .transfer i j h _ _ _ => i ≠ j ∨ h = none
  | _ => True

theorem like_early {a w : World α} (h : Like a w) {x y : Out α} (hxy : LikeOut x y) (o : Option (Option Err)) :
    LikeOut (match o with | some none => .ok a | some (some e) => .err e a | none => x)
      (match o with | some none => .ok w | some (some e) => .err e w | none => y) := by
  rcases o with _ | _ | e
  · exact hxy
  · exact h
  · exact ⟨rfl, h⟩

theorem like_call (T : Traits) {a w : World α} (h : Like a w) (i : Nat) (c : Call α) :
    LikeOut (callMany i c a) (callOn T i c w) := by
  have hd : ∀ d, w.get i = some d → detach T i w = .ok w := by
    intro d hd
    have := h.own i d hd
    simp [detach, hd, this]
  unfold callMany callOn
  rcases h.get i with ⟨h1, h2⟩ | ⟨k, d, h1, h2, hs, hc, he, hh, hh'⟩
  · rw [h1, h2]; trivial
  · have hr := like_run h i (callRun_agree c)
    have hd := hd d h2
    simp only [h1, h2, hh', hd]
    cases c <;> simp only [early, isRelease, clearOn, h2, hh', Option.isSome_none, Bool.false_eq_true, if_false, if_true,
      Out.bind] <;> try exact hr
    · rw [hc]; exact like_early h hr _
    · exact like_early h hr _
    · exact like_early h hr _

theorem like_step (T : Traits) (hT : T.cow = false) {a w : World α} (h : Like a w) (c : Step α) (hp : Step.Plain c) :
    LikeOut (stepMany T c a).1 (c.run T w) := by
  have hd : ∀ i d, w.get i = some d → detach T i w = .ok w := by
    intro i d hd
    have := h.own i d hd
    simp [detach, hd, this]
  cases c with
  | construct k =>
    simp only [stepMany, Step.run, constructMany, Cow.construct, ctorRun_eq]
    cases k.run with
    | ok s => exact like_push h _ _ _
    | err e => exact ⟨rfl, h⟩
    | ub => trivial
  | copy i => exact like_copy T hT h i
  | clone i => exact like_clone T hT h i
  | move i => exact like_move h i
  | assign i j =>
    simp only [stepMany, Step.run, Cow.assign, h.length]
    exact (like_copy T hT h j).bind fun a w h => like_swapLast h _ _
  | moveAssign i j =>
    simp only [stepMany, Step.run, Cow.moveAssign, h.length]
    exact (like_move h j).bind fun a w h => like_swapLast h _ _
  | swap i j => exact like_swap h i j
  | destroy i => exact like_destroy h i
  | call i c => exact like_call T h i c
  | detach i =>
    simp only [stepMany, Step.run]
    rcases h.get i with ⟨h1, h2⟩ | ⟨c, d, h1, h2, hs, hc, he, hh, hh'⟩
    · rw [h1, detach, h2]; trivial
    · rw [h1, hd i d h2]; exact h
  | transfer i j hh x y z =>
    simp only [stepMany, Step.run, transferMany, transferOn]
    by_cases hij : i = j
    · rw [if_pos hij, if_pos hij]
      rcases hp with hp | hp
      · exact absurd hij hp
      · subst hp; exact ⟨rfl, h⟩
    · rw [if_neg hij, if_neg hij]
      rw [transfer_eq]
      rcases h.get i with ⟨h1, h2⟩ | ⟨c, d, h1, h2, hs, hc, he, hh', hh''⟩
      · simp [runOwned2, detach, h1, h2, Out.bind, LikeOut]
      · rcases h.get j with ⟨k1, k2⟩ | ⟨c', d', k1, k2, ks, kc, ke, kh, kh'⟩
        · rw [hd i d h2]; simp [runOwned2, detach, h1, h2, k1, k2, Out.bind, LikeOut]
        · simp only [hd i d h2, hd j d' k2, Out.bind]
          exact like_run2 h i j (transfer_blind _ _ _ _ _).agree
  | swapRange i j x y z =>
    simp only [stepMany, Step.run, swapRangeMany, swapOn]
    rcases h.get i with ⟨h1, h2⟩ | ⟨c, d, h1, h2, hs, hc, he, hh, hh'⟩
    · rw [h1, h2]; trivial
    · rcases h.get j with ⟨k1, k2⟩ | ⟨c', d', k1, k2, ks, kc, ke, kh, kh'⟩
      · simp only [h1, h2, k1, k2]; trivial
      · simp only [h1, h2, k1, k2, hd i d h2, hd j d' k2, Out.bind, hc, kc]
        split
        · exact ⟨rfl, h⟩
        · rw [swapRange_eq]; exact like_run2 h i j (swapRange_blind _ _ _).agree

end Mdds.Aos
