import Verif.Mtv.CowSteps
/-!
# multi_type_vector: property theorems on copies, moves and copy-on-write

The specification is `CowSpec.lean`: each container is a value of its own.
-/

namespace Mdds.Mtv.Cow

set_option linter.unusedSectionVars false
set_option linter.unusedVariables false

variable {α : Type} [DecidableEq α] {T : Traits} {w : World α} {S : Items α}

/-! ### A history for the examples -/

/-- Numbers can be copied, objects behind pointers only cloned, type 60 neither. -/
def exTraits (cow : Bool) : Traits := ⟨cow, fun t => t.cat == 0, fun t => t.cat != 60, fun t h => by simp_all⟩

abbrev tN : Ty := ⟨0, false⟩
abbrev tX : Ty := ⟨60, false⟩

/-- Every kind of step. -/
def exSteps : List (Step Nat) :=
  [.construct .default, .call 0 (.pushBack tN 1), .call 0 .pushBackEmpty, .call 0 (.pushBack tN 3),
    .copy 0, .call 1 (.set none 0 tN 7), .copy 0, .copy 2, .destroy 2, .call 0 (.pushBack tM 4), .clone 0,
    .copy 0, .call 4 (.release none 3 tM), .detach 4, .call 4 (.release none 3 tM), .move 1, .moveAssign 3 5, .assign 5 4,
    .swap 0 3, .transfer 4 0 none 0 1 1, .swapRange 5 0 2 2 0, .call 1 .clear, .construct (.range 2 tN [1])]

theorem exDefined (cow : Bool) : DefinedAll (exTraits cow) [] exSteps := by
  cases cow <;>
  simp [exSteps, DefinedAll, Step.Defined, Step.spec, Live, Items.at, callSpec, Ctor.spec, Call.spec, Call.Defined, Call.at_, allOf,
    valuesOf, exTraits, isRelease, touches, typeAt, moveCells, exchangeCells]

/-- What the specification says a container shows. -/
def Items.shows (S : Items α) (i : Nat) : Option (List (Cell α)) :=
  (S.at i).map fun
    | .moved => []
    | .live L _ => L

/-- `size()` of container `i`. -/
def World.size (w : World α) (i : Nat) : Option Nat := (w.get i).map Ctr.cur

theorem shown_eq (I : Inv T w S) (i : Nat) : w.shown i = S.shows i := by
  unfold World.shown Items.shows
  have h := I.items i
  rcases hc : w.get i with _ | c <;> rcases hx : S.at i with _ | (_ | ⟨L, m⟩) <;> rw [hc, hx] at h
  · rfl
  · exact h.elim
  · exact h.elim
  · exact h.elim
  · simp [load, h.1, loadBlocks, contents_eq, cells]
  · obtain ⟨bs, h1, h2, -⟩ := h
    simp [load, h1.load, contents_eq, h2]

/-! ### C38: copies are independent -/

/-- Every history of defined steps runs: no step reads or deletes a block that does not exist or
was deleted.  Afterwards every container shows what it would show if nothing were shared. -/
theorem C38_history (T : Traits) (cs : List (Step α)) (hd : DefinedAll T [] cs) :
    ∃ w, runSteps T cs World.init = some w ∧ ∀ i, w.shown i = (specSteps T [] cs).shows i := by
  obtain ⟨w, e, I⟩ := steps_ok cs (inv_init T) hd
  exact ⟨w, e, fun i => shown_eq I i⟩

example : DefinedAll (exTraits true) [] exSteps ∧ exSteps.length = 23 := ⟨exDefined true, rfl⟩

/-- The world after the first `n` steps of the example. -/
def exWorld (cow : Bool) (n : Nat) : World Nat := (runSteps (exTraits cow) (exSteps.take n) World.init).getD World.init
def exItems (cow : Bool) (n : Nat) : Items Nat := specSteps (exTraits cow) [] (exSteps.take n)

theorem definedAll_take (cs : List (Step α)) : ∀ (S : Items α) n, DefinedAll T S cs → DefinedAll T S (cs.take n) := by
  induction cs with
  | nil => intro S n h; simpa using h
  | cons c cs ih =>
    intro S n h
    cases n with
    | zero => trivial
    | succ n => exact ⟨h.1, ih _ n h.2⟩

theorem exReached (cow : Bool) (n : Nat) : Reached (exTraits cow) (exWorld cow n) (exItems cow n) := by
  have hd := definedAll_take exSteps [] n (exDefined cow)
  obtain ⟨w, e, -⟩ := C38_history _ _ hd
  refine ⟨exSteps.take n, hd, ?_, rfl⟩
  unfold exWorld
  rw [e]; rfl

theorem definedAll_append (cs ds : List (Step α)) : ∀ (S : Items α), DefinedAll T S cs → DefinedAll T (specSteps T S cs) ds →
    DefinedAll T S (cs ++ ds) := by
  induction cs with
  | nil => intro S _ h; exact h
  | cons c cs ih => intro S h1 h2; exact ⟨h1.1, ih _ h1.2 h2⟩

theorem runSteps_append (cs ds : List (Step α)) : ∀ (w : World α), runSteps T (cs ++ ds) w = (runSteps T cs w).bind (runSteps T ds) := by
  induction cs with
  | nil => intro w; rfl
  | cons c cs ih =>
    intro w
    simp only [List.cons_append, runSteps]
    cases c.run T w with
    | ok w' => exact ih w'
    | err e w' => exact ih w'
    | ub => rfl

theorem Reached.snoc (h : Reached T w S) (c : Step α) (hd : c.Defined T S) {w' : World α}
    (hr : runSteps T [c] w = some w') : Reached T w' (c.spec T S).1 := by
  obtain ⟨cs, h1, h2, rfl⟩ := h
  refine ⟨cs ++ [c], definedAll_append cs [c] [] h1 ⟨hd, trivial⟩, ?_, ?_⟩
  · rw [runSteps_append, h2]; exact hr
  · simp [specSteps]

/-- A defined step throws exactly the exception the specification asks for, and otherwise
returns. -/
theorem C38_exceptions (h : Reached T w S) (c : Step α) (hd : c.Defined T S) :
    match (c.spec T S).2 with
    | none => ∃ w', c.run T w = .ok w' ∧ Reached T w' (c.spec T S).1
    | some e => ∃ w', c.run T w = .err e w' ∧ Reached T w' (c.spec T S).1 := by
  have := step_ok (reached_inv h) c hd
  cases ho : c.run T w with
  | ub => rw [ho] at this; exact this.elim
  | ok w' =>
    rw [ho] at this
    rw [this.1]
    exact ⟨w', rfl, h.snoc c hd (by simp [runSteps, ho])⟩
  | err e w' =>
    rw [ho] at this
    rw [this.1]
    exact ⟨w', rfl, h.snoc c hd (by simp [runSteps, ho])⟩

example : ((Step.copy 0 : Step Nat).spec (exTraits true) (exItems true 11)).2 = some .elementBlock ∧
    (Step.copy 0 : Step Nat).Defined (exTraits true) (exItems true 11) ∧
    ((Step.call 4 (.release none 3 tM) : Step Nat).spec (exTraits true) (exItems true 12)).2 = some .sharedBlock :=
  ⟨by decide +kernel, ⟨_, _, rfl⟩, by decide +kernel⟩

/-- The containers a step may change. -/
def Step.names : Step α → List Nat
  | .construct _ | .copy _ | .clone _ => []
  | .move i | .destroy i | .call i _ | .detach i | .assign i _ => [i]
  | .moveAssign i j | .swap i j | .transfer i j .. | .swapRange i j .. => [i, j]

theorem at_set_other (S : Items α) {i j : Nat} (h : j ≠ i) (x : Option (Item α)) : Items.at (S.set i x) j = S.at j := by
  unfold Items.at
  rw [List.getElem?_set_ne (fun e => h e.symm)]

theorem shows_set_other (S : Items α) {i j : Nat} (h : j ≠ i) (x : Option (Item α)) : Items.shows (S.set i x) j = S.shows j := by
  unfold Items.shows; rw [at_set_other S h]

theorem shows_set_mark {S : Items α} {i : Nat} {L : List (Cell α)} {m b : Bool} (h : S.at i = some (.live L m)) (j : Nat) :
    Items.shows (S.set i (some (.live L b))) j = S.shows j := by
  by_cases hj : j = i
  · subst hj
    unfold Items.shows
    rw [Items.at_set _ _ _ _ (Items.at_lt (by rw [h]; simp)), if_pos rfl, h]; rfl
  · exact shows_set_other S hj _

theorem shows_append {S : Items α} {j : Nat} (hj : j < S.length) (x : Option (Item α)) : Items.shows (S ++ [x]) j = S.shows j := by
  unfold Items.shows
  rw [Items.at_append, if_neg (by omega)]

theorem spec_other (S : Items α) (c : Step α) {j : Nat} (hj : j < S.length) (hn : j ∉ c.names) :
    Items.shows (c.spec T S).1 j = S.shows j := by
  cases c with
  | construct k =>
    simp only [Step.spec]
    split
    · exact shows_append hj _
    · rfl
  | copy i =>
    simp only [Step.spec]
    split
    · rename_i L m h
      split
      · rw [shows_append (by simpa using hj)]; exact shows_set_mark h j
      · rfl
    · rfl
  | clone i =>
    simp only [Step.spec]
    split
    · rename_i L m h
      split
      · rw [shows_append (by simpa using hj)]; exact shows_set_mark h j
      · rfl
    · rfl
  | move i =>
    simp only [Step.names, List.mem_cons, List.not_mem_nil, or_false] at hn
    simp only [Step.spec]
    rw [shows_append (by simpa using hj), shows_set_other S hn]
  | assign i k =>
    simp only [Step.names, List.mem_cons, List.not_mem_nil, or_false] at hn
    simp only [Step.spec]
    split
    · rename_i L m h
      split
      · rw [shows_set_other _ hn]; exact shows_set_mark h j
      · rfl
    · rfl
  | moveAssign i k =>
    simp only [Step.names, List.mem_cons, List.not_mem_nil, or_false, not_or] at hn
    simp only [Step.spec]
    rw [shows_set_other _ hn.1, shows_set_other _ hn.2]
  | swap i k =>
    simp only [Step.names, List.mem_cons, List.not_mem_nil, or_false, not_or] at hn
    simp only [Step.spec]
    rw [shows_set_other _ hn.2, shows_set_other _ hn.1]
  | destroy i =>
    simp only [Step.names, List.mem_cons, List.not_mem_nil, or_false] at hn
    exact shows_set_other S hn _
  | call i c =>
    simp only [Step.names, List.mem_cons, List.not_mem_nil, or_false] at hn
    simp only [Step.spec]
    split <;> exact shows_set_other S hn _
  | detach i =>
    simp only [Step.names, List.mem_cons, List.not_mem_nil, or_false] at hn
    simp only [Step.spec]
    split
    · exact shows_set_other S hn _
    · rfl
  | transfer i k h a e d =>
    simp only [Step.names, List.mem_cons, List.not_mem_nil, or_false, not_or] at hn
    simp only [Step.spec]
    split
    · rfl
    · split
      · split <;> rw [shows_set_other _ hn.2, shows_set_other _ hn.1]
      · rfl
  | swapRange i k a e d =>
    simp only [Step.names, List.mem_cons, List.not_mem_nil, or_false, not_or] at hn
    simp only [Step.spec]
    split
    · split
      · rw [shows_set_other _ hn.2, shows_set_other _ hn.1]
      · rfl
    · rfl

/-- A step changes nothing that other containers show, whether it returns or throws. -/
theorem C38_isolated (h : Reached T w S) (c : Step α) (hd : c.Defined T S) {j : Nat} (hj : j < w.ctrs.length) (hn : j ∉ c.names) :
    match c.run T w with
    | .ok w' | .err _ w' => w'.shown j = w.shown j
    | .ub => False := by
  have I := reached_inv h
  have := step_ok I c hd
  rw [I.len] at hj
  cases ho : c.run T w with
  | ub => rw [ho] at this; exact this.elim
  | ok w' => rw [ho] at this; dsimp only; rw [shown_eq this.2, shown_eq I, spec_other S c hj hn]
  | err e w' => rw [ho] at this; dsimp only; rw [shown_eq this.2, shown_eq I, spec_other S c hj hn]

/-- The call on container 1 in the example finds its blocks shared with container 0. -/
example : (Step.call 1 (.set none 0 tN 7) : Step Nat).Defined (exTraits true) (exItems true 5) ∧
    ((exWorld true 5).get 0).map Ctr.holder = some (some 0) ∧ ((exWorld true 5).get 1).map Ctr.holder = some (some 0) ∧
    (exWorld true 6).shown 1 = some [some (tN, 7), none, some (tN, 3)] ∧
    (exWorld true 6).shown 0 = some [some (tN, 1), none, some (tN, 3)] :=
  ⟨Or.inl ⟨_, _, rfl, by simp [Call.Defined, Call.at_]⟩, by decide +kernel, by decide +kernel, by decide +kernel, by decide +kernel⟩

/-- A copy shows what the source shows, and the source shows it still.  If a block cannot be
copied, there is an exception and nothing changes. -/
theorem C38_copy (h : Reached T w S) {i : Nat} {L : List (Cell α)} (hl : Live S i) (hL : w.shown i = some L) :
    if allOf T.copyable L then ∃ w', copyCtor T i w = .ok w' ∧ w'.shown i = some L ∧ w'.shown w.ctrs.length = some L
    else copyCtor T i w = .err .elementBlock w := by
  have I := reached_inv h
  obtain ⟨K, m, hK⟩ := hl
  have : K = L := by
    rw [shown_eq I] at hL; unfold Items.shows at hL; rw [hK] at hL; simpa using hL
  subst this
  have li := Items.at_lt (S := S) (i := i) (by rw [hK]; simp)
  have hag := copyCtor_ok I hK
  split
  · rename_i hc
    rw [if_pos hc] at hag
    cases ho : copyCtor T i w with
    | ub => rw [ho] at hag; exact hag.elim
    | err e w' => rw [ho] at hag; exact absurd hag.1 (by simp)
    | ok w' =>
      rw [ho] at hag
      obtain ⟨-, I'⟩ := hag
      refine ⟨w', rfl, ?_, ?_⟩
      · rw [shown_eq I', shows_append (by simpa using li), shows_set_mark hK, ← shown_eq I, hL]
      · rw [shown_eq I']
        unfold Items.shows
        rw [Items.at_append, I.len, if_pos (by simp)]; rfl
  · rename_i hc
    obtain ⟨c, bs, h1, sh, h2, -⟩ := I.live hK
    have hT : allTypes T.copyable bs = false := by rw [types_cells sh.tile, h2]; simpa using hc
    simp only [copyCtor, h1, sh.load, hT, Bool.false_eq_true, if_false]

example : Live (exItems true 4) 0 ∧ (exWorld true 4).shown 0 = some [some (tN, 1), none, some (tN, 3)] ∧
    allOf (exTraits true).copyable [some (tN, 1), none, some (tN, 3)] = true ∧
    Live (exItems true 11) 0 ∧ (exWorld true 11).shown 0 = some [some (tN, 1), none, some (tN, 3), some (tM, 4)] ∧
    allOf (exTraits true).copyable [some (tN, 1), none, some (tN, 3), some (tM, 4)] = false :=
  ⟨⟨_, _, rfl⟩, by decide +kernel, by decide, ⟨_, _, rfl⟩, by decide +kernel, by decide⟩

/-- `size()` is the number of cells, except for a container that was moved from. -/
theorem C38_size (h : Reached T w S) {i : Nat} (hl : Live S i) : w.size i = (w.shown i).map List.length := by
  have I := reached_inv h
  obtain ⟨K, m, hK⟩ := hl
  obtain ⟨c, bs, h1, sh, h2, -⟩ := I.live hK
  have := cells_length (sh.wf w.next).1
  simp only at this
  rw [shown_eq I]
  simp [World.size, h1, Items.shows, hK, ← h2, this]

example : Live (exItems true 20) 0 ∧ (exWorld true 20).size 0 = some 3 := ⟨⟨_, _, rfl⟩, by decide +kernel⟩

/-- Finding: a container that was moved from has no cells, but `size()` is what it was before. -/
theorem C38_moved_size_fails : ∃ (T : Traits) (w : World Nat) (S : Items Nat) (i : Nat), Reached T w S ∧
    w.shown i = some [] ∧ w.size i = some 3 := by
  refine ⟨exTraits false, exWorld false 16, exItems false 16, 1, exReached false 16, ?_, ?_⟩ <;> decide +kernel

/-- A block exists exactly as long as some container points to it: nothing is deleted too early
and nothing is forgotten. -/
theorem C38_blocks (h : Reached T w S) (a : Nat) :
    (w.heap a).isSome ↔ ∃ (i : Nat) (c : Ctr), w.get i = some c ∧ a ∈ addrs c.slots := by
  have I := reached_inv h
  constructor
  · intro ha
    have h0 := I.core.own a
    rw [if_pos ha] at h0
    by_cases h1 : 0 < (w.ctrs.flatMap ownC).count a
    · rw [List.count_pos_iff, List.mem_flatMap] at h1
      obtain ⟨x, hx, hm⟩ := h1
      obtain ⟨i, hi⟩ := List.getElem?_of_mem hx
      rcases x with _ | c
      · simp [ownC] at hm
      · refine ⟨i, c, join_some.2 hi, ?_⟩
        simp only [ownC] at hm
        split at hm
        · exact hm
        · simp at hm
    · have h2 : 0 < (w.holders.flatMap ownH).count a := by omega
      rw [List.count_pos_iff, List.mem_flatMap] at h2
      obtain ⟨x, hx, hm⟩ := h2
      obtain ⟨q, hq⟩ := List.getElem?_of_mem hx
      rcases x with _ | k
      · simp [ownH] at hm
      · obtain ⟨r1, r2⟩ := I.core.refs q k (join_some.2 hq)
        have h3 : 0 < w.ctrs.countP (bors q) := by simp at r1; omega
        rw [List.countP_pos_iff] at h3
        obtain ⟨y, hy, hb⟩ := h3
        obtain ⟨i, hi⟩ := List.getElem?_of_mem hy
        rcases y with _ | c
        · simp [bors] at hb
        · simp only [bors, decide_eq_true_eq] at hb
          obtain ⟨k', e1, e2⟩ := I.core.bor i c q (join_some.2 hi) hb
          rw [join_some.2 hq] at e1
          cases e1
          exact ⟨i, c, join_some.2 hi, by rw [← e2]; exact hm⟩
  · rintro ⟨i, c, hc, ha⟩
    exact I.core.live hc a ha

/-- Once all containers are destroyed no block is left. -/
theorem C38_no_leak (h : Reached T w S) (hall : ∀ i, w.get i = none) (a : Nat) : w.heap a = none := by
  have := C38_blocks h a
  cases hx : w.heap a with
  | none => rfl
  | some x =>
    rw [hx] at this
    obtain ⟨i, c, hc, -⟩ := this.1 rfl
    rw [hall i] at hc; cases hc

/-- The example with all containers destroyed at the end. -/
def exAll : List (Step Nat) := exSteps ++ [.destroy 5, .destroy 0, .destroy 3, .destroy 1, .destroy 4]

example : ∃ w, Reached (exTraits true) w (specSteps (exTraits true) [] exAll) ∧ (∀ i, w.get i = none) ∧ w.next = 27 := by
  have hd : DefinedAll (exTraits true) [] exAll := definedAll_append exSteps _ [] (exDefined true) (by
    simp [exSteps, specSteps, DefinedAll, Step.Defined, Step.spec, Items.at, callSpec, Ctor.spec, Call.spec, allOf,
      valuesOf, exTraits, isRelease, touches, moveCells, exchangeCells])
  obtain ⟨w, e, hs⟩ := C38_history _ _ hd
  refine ⟨w, ⟨exAll, hd, e, rfl⟩, fun i => ?_, ?_⟩
  · have h1 : w.ctrs = List.replicate 6 none := by
      have : (runSteps (exTraits true) exAll World.init).map World.ctrs = some (List.replicate 6 none) := by decide +kernel
      rw [e] at this; simpa using this
    unfold World.get
    rw [h1]
    rcases h2 : (List.replicate 6 (none : Option Ctr))[i]? with _ | x
    · rfl
    · have := List.eq_of_mem_replicate (List.mem_of_getElem? h2)
      rw [this]; rfl
  · have : (runSteps (exTraits true) exAll World.init).map World.next = some 27 := by decide +kernel
    rw [e] at this; simpa using this

/-- Two containers point to a common block only if both are marked as sharing. -/
theorem C38_shared (h : Reached T w S) {i j : Nat} {c d : Ctr} (hij : i ≠ j) (hc : w.get i = some c) (hd : w.get j = some d)
    {a : Nat} (ha : a ∈ addrs c.slots) (hb : a ∈ addrs d.slots) : c.holder.isSome ∧ c.holder = d.holder := by
  have I := reached_inv h
  rcases h1 : c.holder with _ | p
  · exact absurd ha (I.core.apart hij hc hd h1 a hb)
  · rcases h2 : d.holder with _ | q
    · exact absurd hb (I.core.apart (fun e => hij e.symm) hd hc h2 a ha)
    · refine ⟨rfl, ?_⟩
      by_contra hne
      obtain ⟨k, e1, e2⟩ := I.core.bor i c p hc h1
      obtain ⟨k', e3, e4⟩ := I.core.bor j d q hd h2
      have h5 := count_le_flatMap2 ownH (some k) (some k') a w.holders p q (fun e => hne (by rw [e])) (join_some.1 e1) (join_some.1 e3)
      simp only [ownH, e2, e4] at h5
      have h0 := I.core.own a
      have h6 := List.count_pos_iff.2 ha
      have h7 := List.count_pos_iff.2 hb
      have : (if (w.heap a).isSome then 1 else 0) ≤ 1 := by split <;> omega
      omega

example : ((exWorld true 8).get 0).map Ctr.holder = some (some 0) ∧ ((exWorld true 8).get 3).map Ctr.holder = some (some 0) ∧
    (((exWorld true 8).get 0).map fun c => addrs c.slots) = (((exWorld true 8).get 3).map fun c => addrs c.slots) ∧
    (((exWorld true 8).get 0).map fun c => (addrs c.slots).length) = some 2 :=
  ⟨by decide +kernel, by decide +kernel, by decide +kernel, by decide +kernel⟩

/-- The event handler of every container was told of as many acquisitions as releases and blocks
held now; that of a destroyed container of as many acquisitions as releases. -/
theorem C38_events (h : Reached T w S) :
    (∀ (i : Nat) (c : Ctr), w.get i = some c → nacq c.evs = nrel c.evs + (addrs c.slots).length) ∧
    ∀ l ∈ w.logs, nacq l = nrel l := by
  have I := reached_inv h
  refine ⟨fun i c hc => ?_, I.logs⟩
  have := I.items i
  rw [hc] at this
  exact this.bal

example : ((exWorld true 23).get 3).map (fun c => (nacq c.evs, nrel c.evs, (addrs c.slots).length)) = some (5, 2, 3) ∧
    (exWorld true 23).logs.map nacq = [2, 2, 0] := ⟨by decide +kernel, by decide +kernel⟩

/-- After `detach` no other container points to the same blocks, and the container shows what it
showed. -/
theorem C38_detach (h : Reached T w S) {i : Nat} (hl : Live S i) :
    ∃ w', detach T i w = .ok w' ∧ (∀ j, w'.shown j = w.shown j) ∧
      ∀ (c d : Ctr) (j : Nat), j ≠ i → w'.get i = some c → w'.get j = some d → ∀ a ∈ addrs c.slots, a ∉ addrs d.slots := by
  have I := reached_inv h
  obtain ⟨L, m, hL⟩ := hl
  obtain ⟨w', e, I'⟩ := detach_ok I hL
  refine ⟨w', e, fun j => by rw [shown_eq I', shown_eq I, shows_set_mark hL], ?_⟩
  intro c d j hj hc hd a ha hb
  obtain ⟨c', bs, h1, ho, -, -⟩ := I'.owner (i := i) (L := L) (by
    rw [Items.at_set _ _ _ _ (Items.at_lt (by rw [hL]; simp)), if_pos rfl])
  rw [hc] at h1; cases h1
  exact I'.core.apart (fun e => hj e.symm) hc hd ho a hb ha

example : Live (exItems true 13) 4 ∧ (((exWorld true 13).get 4).map fun c => addrs c.slots) = (((exWorld true 13).get 0).map fun c => addrs c.slots) :=
  ⟨⟨_, _, rfl⟩, by decide +kernel⟩

theorem call_stuck {i q : Nat} {c : Ctr} {bs : List (Blk α)} {L : List (Cell α)} (hc : w.get i = some c) (hh : c.holder = some q)
    (hl : loadBlocks w.heap c.slots = some bs) (hT : allTypes T.clonable bs = false) (hlen : c.cur = L.length) (k : Call α)
    (h1 : k ≠ .clear) (h2 : isRelease k = false) (h3 : touches L k = true) : callOn T i k w = .err .elementBlock w := by
  have he := early_ok L k
  have he' : early c.cur k = none := by
    rw [hlen]
    rcases hx : early L.length k with _ | (_ | e)
    · rfl
    · rw [hx, h3] at he; exact absurd he.2 (by simp)
    · rw [hx, h3] at he; exact absurd he.2.2 (by simp)
  have hd : detach T i w = .err .elementBlock w := by
    simp only [detach, hc, hh, hl, hT, Bool.false_eq_true, if_false]
  cases k with
  | clear => exact absurd rfl h1
  | _ => simp only [callOn, hc, h2, Bool.false_eq_true, if_false, he', hd, Out.bind]

/-- Finding M8: with copy-on-write `clone() const` of a container that holds blocks which can be
neither copied nor cloned succeeds, and from then on every modifying call on the source throws. -/
theorem C38_clone_fails (hcow : T.cow = true) (h : Reached T w S) {i : Nat} {L : List (Cell α)} {m : Bool}
    (hL : S.at i = some (.live L m)) (hno : allOf T.clonable L = false) :
    ∃ w', cloneCtor T i w = .ok w' ∧ ∀ c : Call α, c ≠ .clear → isRelease c = false → touches L c = true →
      callOn T i c w' = .err .elementBlock w' := by
  have I := reached_inv h
  obtain ⟨c, bs, hc, sh, hb, hm⟩ := I.live hL
  have hT : allTypes T.clonable bs = false := by rw [types_cells sh.tile, hb]; exact hno
  have ho : c.holder = none := by
    rcases hh : c.holder with _ | q
    · rfl
    · obtain ⟨k, e1, e2⟩ := I.core.bor i c q hc hh
      have : allTypes T.clonable bs = true := by
        rw [load_types sh.load]
        intro a ha
        have := I.core.live hc a ha
        rcases hx : w.heap a with _ | x
        · rw [hx] at this; cases this
        · exact ⟨x, rfl, I.core.clon q k e1 a (by rw [e2]; exact ha) x hx⟩
      rw [hT] at this; cases this
  have hlen : c.cur = L.length := by
    have := cells_length (sh.wf w.next).1
    simp only at this
    rw [← hb, this]
  have hg : (w.ctrs.set i (some { c with holder := some w.holders.length }))[i]?.join =
      some { c with holder := some w.holders.length } := by rw [Cow.at_set _ _ _ _ (at_lt hc), if_pos rfl]
  have hq : (w.holders ++ [some (⟨addrs c.slots, 1⟩ : Holder)])[w.holders.length]?.join = some ⟨addrs c.slots, 1⟩ := by simp
  have e1 : share i w = .ok { w with holders := w.holders ++ [some ⟨addrs c.slots, 1⟩]
                                     ctrs := w.ctrs.set i (some { c with holder := some w.holders.length }) } := by
    simp only [share, hc, ho]
  have e2 : cloneCtor T i w = borrow i w := by simp only [cloneCtor, hc, hcow, if_true]
  rw [e2]
  simp only [borrow, e1, Out.bind, World.get, hg, addRef, hq]
  refine ⟨_, rfl, fun k h1 h2 h3 => ?_⟩
  refine call_stuck (c := { c with holder := some w.holders.length }) (bs := bs) (L := L) (q := w.holders.length) ?_ ?_ ?_ hT ?_ k h1 h2 h3
  rotate_left
  · rfl
  · exact sh.load
  · exact hlen
  simp only [World.get]
  rw [Cow.at_append, if_neg (by have := at_lt hc; simp; omega), Cow.at_set _ _ _ _ (at_lt hc), if_pos rfl]

/-- The exception of a step. -/
def Out.error : Out α → Option Err
  | .err e _ => some e
  | _ => none

/-- Destroying the clone does not help: the source still throws.  Without copy-on-write it is
`clone` that throws. -/
def cloneSteps : List (Step Nat) := [.construct .default, .call 0 (.pushBack tX 1)]

example : DefinedAll (exTraits true) [] cloneSteps ∧
    allOf (exTraits true).clonable ([some (tX, 1)] : List (Cell Nat)) = false ∧
    (runSteps (exTraits true) (cloneSteps ++ [.clone 0, .destroy 1]) World.init).map (fun w =>
      (callOn (exTraits true) 0 (.pushBack tN 2) w).error) = some (some .elementBlock) ∧
    (runSteps (exTraits false) cloneSteps World.init).map (fun w => (cloneCtor (exTraits false) 0 w).error) = some (some .elementBlock) :=
  ⟨by simp [cloneSteps, DefinedAll, Step.Defined, Step.spec, Items.at, Ctor.spec, Call.Defined, Call.at_], by decide, by decide +kernel, by decide +kernel⟩

/-- Test: `release` is still refused when the copy is gone and nothing is shared any more. -/
example : (runSteps (exTraits true) [.construct .default, .call 0 (.pushBack tN 1), .copy 0, .destroy 1] World.init).map (fun w =>
    (callOn (exTraits true) 0 (.release none 0 tN) w).error) = some (some .sharedBlock) := by decide +kernel

end Mdds.Mtv.Cow
