import Verif.Aos.Many

/-!
# Any number of containers: both implementations, and the specification (C57, C38, C36)
-/

namespace Mdds.Aos
open Mdds Mdds.Mtv Mdds.Mtv.Cow

set_option linter.unusedSectionVars false
set_option linter.unusedVariables false

variable {α : Type}

/-! ### C57: agreement -/

theorem rel_map {x : Option (World α × Lost α)} {y : Option (World α)} (h : Option.Rel (fun p w' => Like p.1 w') x y) (l : Lost α) :
    Option.Rel (fun p w' => Like p.1 w') (x.map fun p => (p.1, l ++ p.2)) y := by
  cases h with
  | none => exact .none
  | some h => exact .some h

theorem many_agree (T : Traits) (hT : T.cow = false) (cs : List (Step α)) (hp : ∀ c ∈ cs, Step.Plain c) :
    ∀ a w : World α, Like a w → (runMany T cs a).1 = (traceSteps T cs w).1 ∧
      Option.Rel (fun p w' => Like p.1 w') (runMany T cs a).2 (traceSteps T cs w).2 := by
  induction cs with
  | nil => intro a w h; exact ⟨rfl, .some h⟩
  | cons c cs ih =>
    intro a w h
    have h1 := like_step T hT h c (hp c (by simp))
    have ih := ih fun c hc => hp c (by simp [hc])
    simp only [runMany, traceSteps]
    rcases e : stepMany T c a with ⟨x, l⟩
    rw [e] at h1
    cases x <;> cases e2 : c.run T w <;> rw [e2] at h1 <;> simp only [LikeOut] at h1 <;> dsimp only
    · obtain ⟨i1, i2⟩ := ih _ _ h1
      refine ⟨by rw [i1], ?_⟩
      exact rel_map i2 l
    · obtain ⟨rfl, h1⟩ := h1
      obtain ⟨i1, i2⟩ := ih _ _ h1
      refine ⟨by rw [i1], ?_⟩
      exact rel_map i2 l
    · exact ⟨rfl, .none⟩

/-- Histories over any number of containers, with construction, copying, cloning, moving, assignment, exchange,
destruction and all calls: without copy-on-write both implementations throw the same exceptions at the same steps, end in
undefined behaviour in the same histories, and end with the same element blocks, the same containers and the same
notifications up to the blocks they name.  Partial: for histories without a hinted `transfer` of a container to itself
(`C57_self_transfer_fails`). -/
theorem C57_many_partial (T : Traits) (hT : T.cow = false) (cs : List (Step α)) (hp : ∀ c ∈ cs, Step.Plain c) :
    (runMany T cs World.init).1 = (traceSteps T cs World.init).1 ∧
    Option.Rel (fun p w => Like p.1 w) (runMany T cs World.init).2 (traceSteps T cs World.init).2 :=
  many_agree T hT cs hp _ _ Like.init

example : (∀ c ∈ exSteps, Step.Plain c) ∧ (runMany (exTraits false) exSteps World.init).1 =
    [none, none, none, none, none, none, none, none, none, none, none, some .elementBlock, none, none, none, none, none,
     none, none, none, none, none, some .invalidArg] := by
  constructor
  · simp [exSteps, Step.Plain]
  · decide +kernel

/-! ### C38: the specification -/

section
variable [DecidableEq α]

/-- The exceptions the specification asks for. -/
def specTrace (T : Traits) : Items α → List (Step α) → List (Option Err)
  | _, [] => []
  | S, c :: cs => (c.spec T S).2 :: specTrace T (c.spec T S).1 cs

theorem trace_spec (T : Traits) : ∀ (cs : List (Step α)) {w : World α} {S : Items α}, Inv T w S → DefinedAll T S cs →
    ∃ w', traceSteps T cs w = (specTrace T S cs, some w') ∧ Inv T w' (specSteps T S cs) := by
  intro cs
  induction cs with
  | nil => intro w S I _; exact ⟨w, rfl, I⟩
  | cons c cs ih =>
    intro w S I hd
    have h := step_ok I c hd.1
    simp only [traceSteps, specTrace]
    cases e : c.run T w with
    | ub => rw [e] at h; exact h.elim
    | ok w' =>
      rw [e] at h
      obtain ⟨w2, h1, h2⟩ := ih h.2 hd.2
      refine ⟨w2, ?_, h2⟩
      dsimp only
      rw [h1, h.1]
    | err x w' =>
      rw [e] at h
      obtain ⟨w2, h1, h2⟩ := ih h.2 hd.2
      refine ⟨w2, ?_, h2⟩
      dsimp only
      rw [h1, h.1]

theorem Like.shown {a w : World α} (h : Like a w) (i : Nat) : a.shown i = w.shown i := by
  unfold World.shown
  rcases like_load h i with ⟨h1, h2⟩ | ⟨s, t, h1, h2, hst⟩
  · rw [h1, h2]
  · rw [h1, h2]
    simp only [Option.map_some, contents_eq, hst.1]

/-- Every history of defined steps runs on the array-of-structures implementation: no step reads or deletes a block that
does not exist or was deleted.  The exceptions are those of the specification, every container shows what the
specification says, and a block of the heap exists exactly as long as some container points to it. -/
theorem C38_aos_history (T : Traits) (hT : T.cow = false) (cs : List (Step α)) (hd : DefinedAll T [] cs) (hp : ∀ c ∈ cs, Step.Plain c) :
    ∃ w l, runMany T cs World.init = (specTrace T [] cs, some (w, l)) ∧
      (∀ i, w.shown i = (specSteps T [] cs).shows i) ∧
      ∀ a, (w.heap a).isSome ↔ ∃ (i : Nat) (c : Ctr), w.get i = some c ∧ a ∈ addrs c.slots := by
  obtain ⟨w', h1, I⟩ := trace_spec T cs (inv_init T) hd
  obtain ⟨h2, h3⟩ := C57_many_partial T hT cs hp
  rw [h1] at h2 h3
  rcases e : runMany T cs World.init with ⟨x, y⟩
  rw [e] at h2 h3
  simp only at h2 h3
  subst h2
  cases h3 with
  | some h4 =>
    rename_i p
    obtain ⟨w, l⟩ := p
    refine ⟨w, l, rfl, fun i => (h4.shown i).trans (shown_eq I i), fun a => ?_⟩
    have hr : Reached T w' (specSteps T [] cs) := ⟨cs, hd, by rw [← traceSteps_eq, h1], rfl⟩
    have hb := C38_blocks hr a
    rw [h4.heap, hb]
    constructor
    · rintro ⟨i, c, h5, h6⟩
      rcases h4.get i with ⟨-, k2⟩ | ⟨c', d, k1, k2, ks, -⟩
      · rw [h5] at k2; cases k2
      · rw [h5] at k2; cases k2
        exact ⟨i, c', k1, by rw [ks]; exact h6⟩
    · rintro ⟨i, c, h5, h6⟩
      rcases h4.get i with ⟨k1, -⟩ | ⟨c', d, k1, k2, ks, -⟩
      · rw [h5] at k1; cases k1
      · rw [h5] at k1; cases k1
        exact ⟨i, d, k2, by rw [← ks]; exact h6⟩

example : DefinedAll (exTraits false) [] exSteps ∧ ∀ c ∈ exSteps, Step.Plain c :=
  ⟨exDefined false, by simp [exSteps, Step.Plain]⟩

/-! ### C36: blocks lost by the copy constructor -/

/-- The values in element blocks. -/
def flat (l : Lost α) : List (Ty × α) := l.flatMap fun b => b.2.map fun v => (b.1, v)

/-- Copies of these values are lost by a step: a copy that throws loses the copies of all values before the first one that
cannot be copied. -/
def lostBy (T : Traits) (S : Items α) : Step α → List (Ty × α)
  | .copy i | .assign _ i =>
    match S.at i with
    | some (.live L _) => if allOf T.copyable L then [] else (valuesOf L).takeWhile fun v => T.copyable v.1
    | _ => []
  | _ => []

def lostAll (T : Traits) : Items α → List (Step α) → List (Ty × α)
  | _, [] => []
  | S, c :: cs => lostBy T S c ++ lostAll T (c.spec T S).1 cs

theorem copiedBefore_flat (p : Ty → Bool) : ∀ (bs : List (Blk α)), (∀ b ∈ bs, ∀ d, b.data = some d → d.vals ≠ []) →
    (copiedBefore p bs).map flat =
      if allOf p (cells bs) then none else some ((valuesOf (cells bs)).takeWhile fun v => p v.1) := by
  intro bs
  induction bs with
  | nil => intro _; rfl
  | cons b bs ih =>
    intro h
    have ih := ih fun b hb => h b (by simp [hb])
    obtain ⟨q, n, d⟩ := b
    cases d with
    | none =>
      simp only [copiedBefore, ih]
      simp [cells, Blk.cells, allOf, valuesOf]
    | some d =>
      have hv := h ⟨q, n, some d⟩ (by simp) d rfl
      have e1 : valuesOf (cells (⟨q, n, some d⟩ :: bs)) = d.vals.map (fun v => (d.ty, v)) ++ valuesOf (cells bs) := by
        simp [cells, Blk.cells, valuesOf, List.filterMap_map]
      simp only [copiedBefore, allOf, e1]
      by_cases hp : p d.ty = true
      · rw [if_pos hp]
        have e2 : (d.vals.map (fun v => (d.ty, v))).all (fun v => p v.1) = true := by simp [hp]
        have e3 : ∀ v ∈ d.vals.map (fun v => (d.ty, v)), p v.1 = true := by simp [hp]
        rw [List.all_append, e2, Bool.true_and, List.takeWhile_append_of_pos e3]
        have ih' : Option.map flat (copiedBefore p bs) = if (valuesOf (cells bs)).all (fun v => p v.1) = true then none else some ((valuesOf (cells bs)).takeWhile fun v => p v.1) := ih
        cases hc : copiedBefore p bs with
        | none =>
          rw [hc] at ih'
          split at ih'
          · rename_i h5; rw [if_pos h5]; rfl
          · cases ih'
        | some l =>
          rw [hc] at ih'
          split at ih'
          · cases ih'
          · rename_i h5
            rw [if_neg h5]
            simp only [Option.map_some, Option.some.injEq] at ih' ⊢
            rw [← ih']
            simp [flat]
      · rw [if_neg hp]
        obtain ⟨v, vs, hv⟩ := List.exists_cons_of_ne_nil hv
        simp [hv, hp, flat]

theorem tile_vals {p : Nat} {bs : List (Blk α)} (h : Tile p bs) : ∀ b ∈ bs, ∀ d, b.data = some d → d.vals ≠ [] := by
  induction bs generalizing p with
  | nil => intro b hb; cases hb
  | cons c bs ih =>
    intro b hb d hd
    rcases List.mem_cons.1 hb with rfl | hb
    · have := h.2.1
      intro hn
      simp [Blk.ok, hd, hn] at this
      omega
    · exact ih h.2.2 b hb d hd

theorem lost_step (T : Traits) {a w : World α} {S : Items α} (h : Like a w) (I : Inv T w S) (c : Step α) :
    flat (stepMany T c a).2 = lostBy T S c := by
  have key : ∀ i, flat (copyMany T i a).2 = (match S.at i with
    | some (.live L _) => if allOf T.copyable L then [] else (valuesOf L).takeWhile fun v => T.copyable v.1
    | _ => []) := by
    intro i
    unfold copyMany
    have hi := I.items i
    rcases h.get i with ⟨h1, h2⟩ | ⟨c, d, h1, h2, hs, hc, he, hh, hh'⟩
    · rw [h1]
      rw [h2] at hi
      cases e : S.at i with
      | none => rfl
      | some x => rw [e] at hi; exact hi.elim
    · rw [h1]
      rw [h2] at hi
      cases e : S.at i with
      | none => rw [e] at hi; exact hi.elim
      | some x =>
        rw [e] at hi
        cases x with
        | moved =>
          simp only [hs, hi.1, loadBlocks, copiedBefore]; rfl
        | live L m =>
          obtain ⟨bs, h3, rfl, -⟩ := hi
          simp only [hs, h.heap, h3.load]
          have hf := copiedBefore_flat T.copyable bs (tile_vals h3.tile)
          cases e2 : copiedBefore T.copyable bs with
          | none =>
            rw [e2] at hf
            split at hf
            · rename_i h5; rw [if_pos h5]; rfl
            · cases hf
          | some l =>
            rw [e2] at hf
            split at hf
            · cases hf
            · rename_i h5
              simp only [Option.map_some, Option.some.injEq] at hf
              rw [if_neg h5]
              exact hf
  cases c <;> first | rfl | exact key _

/-- What the throwing copies of a history lose, exactly. -/
theorem C36_aos_copy_lost (T : Traits) (hT : T.cow = false) (cs : List (Step α)) (hd : DefinedAll T [] cs) (hp : ∀ c ∈ cs, Step.Plain c)
    {w : World α} {l : Lost α} (hr : (runMany T cs World.init).2 = some (w, l)) : flat l = lostAll T [] cs := by
  suffices H : ∀ (cs : List (Step α)) (a w : World α) (S : Items α), Like a w → Inv T w S → DefinedAll T S cs → (∀ c ∈ cs, Step.Plain c) →
      ∀ w' l, (runMany T cs a).2 = some (w', l) → flat l = lostAll T S cs from
    H cs _ _ _ Like.init (inv_init T) hd hp w l hr
  intro cs
  induction cs with
  | nil => intro a w S h I _ _ w' l e; cases e; rfl
  | cons c cs ih =>
    intro a w S h I hd hp w' l e
    have h1 := like_step T hT h c (hp c (by simp))
    have h2 := step_ok I c hd.1
    have h3 := lost_step T h I c
    simp only [runMany] at e
    simp only [lostAll]
    rcases e1 : stepMany T c a with ⟨x, l1⟩
    rw [e1] at h1 h3 e
    cases x <;> cases e2 : c.run T w <;> rw [e2] at h1 h2 <;> simp only [LikeOut] at h1 <;> dsimp only at e h3
    · rename_i a' w''
      cases e3 : (runMany T cs a').2 <;> rw [e3] at e <;> cases e
      rename_i p
      have := ih _ _ _ h1 h2.2 hd.2 (fun c hc => hp c (by simp [hc])) p.1 p.2 e3
      rw [← this, ← h3]; simp [flat]
    · rename_i a' _ w''
      cases e3 : (runMany T cs a').2 <;> rw [e3] at e <;> cases e
      rename_i p
      have := ih _ _ _ h1.2 h2.2 hd.2 (fun c hc => hp c (by simp [hc])) p.1 p.2 e3
      rw [← this, ← h3]; simp [flat]
    · cases e

/-- Finding A3: the copy constructor of the array-of-structures implementation forgets the element blocks it has copied
when a later block cannot be copied.  After the exception, and after everything is destroyed, a copy of the values 1 and 2
is still allocated; the structure-of-arrays implementation leaves nothing. -/
theorem C36_aos_copy_leak_fails : ∃ (T : Traits) (cs : List (Step Nat)), T.cow = false ∧ DefinedAll T [] cs ∧
    (runMany T cs World.init).1 = [none, none, none, none, some .elementBlock, none] ∧
    (runMany T cs World.init).2.map (fun p => (p.1.ctrs, p.2)) = some ([none], [(Cow.tN, [1, 2])]) ∧
    (traceSteps T cs World.init).1 = [none, none, none, none, some .elementBlock, none] ∧
    ∃ w, (traceSteps T cs World.init).2 = some w ∧ ∀ a, w.heap a = none := by
  have hd : DefinedAll (exTraits false) [] ([.construct .default, .call 0 (.pushBack Cow.tN 1), .call 0 (.pushBack Cow.tN 2),
    .call 0 (.pushBack tX 3), .copy 0, .destroy 0] : List (Step Nat)) := by
    simp [DefinedAll, Step.Defined, Step.spec, Live, Items.at, callSpec, Ctor.spec, Call.spec, Call.Defined, Call.at_, allOf,
      valuesOf, exTraits, isRelease, touches]
  refine ⟨exTraits false, _, rfl, hd, by decide +kernel, by decide +kernel, by decide +kernel, ?_⟩
  obtain ⟨w, h1, h2⟩ := C38_history _ _ hd
  refine ⟨w, by rw [traceSteps_eq, h1], C38_no_leak ⟨_, hd, h1, rfl⟩ fun i => ?_⟩
  have h3 : (runSteps (exTraits false) ([.construct .default, .call 0 (.pushBack Cow.tN 1), .call 0 (.pushBack Cow.tN 2),
    .call 0 (.pushBack tX 3), .copy 0, .destroy 0] : List (Step Nat)) World.init).map World.ctrs = some [none] := by decide +kernel
  rw [h1] at h3
  simp only [Option.map_some, Option.some.injEq] at h3
  rw [World.get, h3]
  cases i <;> rfl

example : lostAll (exTraits false) [] ([.construct .default, .call 0 (.pushBack Cow.tN 1), .call 0 (.pushBack Cow.tN 2),
    .call 0 (.pushBack tX 3), .copy 0, .destroy 0] : List (Step Nat)) = [(Cow.tN, 1), (Cow.tN, 2)] := by decide +kernel

end

end Mdds.Aos
