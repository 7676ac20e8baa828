import Verif.Aos.Events
import Verif.Mtv.PairProps

/-!
# The two implementations of multi_type_vector

C57: the array-of-structures and the structure-of-arrays implementation give the same observable
results for the same history.  Also the part of C37 that concerns the array-of-structures
implementation.
-/

namespace Mdds.Aos
open Mdds Mdds.Mtv

set_option linter.unusedSectionVars false

variable {α : Type}

/-! ### One container -/

/-- Every constructor and every history of calls and reads, also one that makes calls with undefined
behaviour: the answers (values, iterators, exceptions) are the same, undefined behaviour is met at
the same point or not at all, and at the end nobody can tell the containers apart except by the block
named in an event.  Partial: the events may name different blocks (`C57_events_fails`); `transfer` of
a container to itself differs as well (`C57_self_transfer_fails`). -/
theorem C57_history_partial (k : Ctor α) (os : List (Op α)) :
    ctorRun k = k.run ∧ ∀ s, k.run = .ok s →
      (history Op.aos os s).1 = (history Op.soa os s).1 ∧
      Option.Rel Alike (history Op.aos os s).2 (history Op.soa os s).2 :=
  ⟨by rw [ctorRun_eq], fun s _ => history_agree os s s (Alike.refl s)⟩

/-- A history with exceptions, reads, and an insert in front of another type. -/
def demoOps : List (Op Nat) :=
  [.call (.pushBack tI 1), .call (.pushBack tI 2), .call (.pushBack tS 3), .call (.insert none 2 tM [7, 8]),
   .call (.set none 9 tI 0), .get 2 tM, .isEmpty 9, .type 4, .position (some none) 3, .next (1, 0), .logical (1, 1),
   .valueAt (1, 1) tM, .call (.erase 0 1), .call (.resize 9), .size, .blockSize]

example : (history Op.aos demoOps mk0).1 =
    [.value (.ret (.iter 0)), .value (.ret (.iter 0)), .value (.ret (.iter 1)), .value (.ret (.iter 1)),
     .threw .outOfRange, .value (.cell (some 7)), .threw .outOfRange, .value (.type (some tS)), .value (.place (1, 1)),
     .value (.place (1, 1)), .value (.num 3), .value (.value 8), .value (.ret .unit), .value (.ret .unit),
     .value (.num 9), .value (.num 3)] ∧ (history Op.aos demoOps mk0).2.isSome = true := by
  decide +kernel

/-- Where no call misreports (finding M1) the containers are equal, event logs included.  Partial as
`C57_history_partial`. -/
theorem C57_events_partial (k : Ctor α) (os : List (Op α)) {s : St α} (_ : k.run = .ok s) (h : Truthful os s) :
    history Op.aos os s = history Op.soa os s := history_same os s h

/-- A history with an insert that does not misreport: the values join the block before. -/
def truthOps : List (Op Nat) :=
  [.call (.pushBack tI 1), .call (.pushBack tS 3), .call (.insert none 1 tI [7, 8]), .call (.setEmpty none 0 1)]

example : Truthful truthOps mk0 ∧ (history Op.soa truthOps mk0).2.map St.evs =
    some [.acq 0, .acq 1] := by
  refine ⟨⟨?_, ?_⟩, by decide +kernel⟩
  · intro c hc; cases hc; exact id
  have e1 : (Op.call (.pushBack tI 1) : Op Nat).soa mk0 =
    .ok (.ret (.iter 0), ⟨[⟨0, 1, some ⟨0, tI, [1]⟩⟩], 1, [], [.acq 0], 1⟩) := by decide +kernel
  rw [e1]
  refine ⟨?_, ?_⟩
  · intro c hc; cases hc; exact id
  have e2 : (Op.call (.pushBack tS 3) : Op Nat).soa ⟨[⟨0, 1, some ⟨0, tI, [1]⟩⟩], 1, [], [.acq 0], 1⟩ =
    .ok (.ret (.iter 1), ⟨[⟨0, 1, some ⟨0, tI, [1]⟩⟩, ⟨1, 1, some ⟨1, tS, [3]⟩⟩], 2, [], [.acq 0, .acq 1], 2⟩) := by
    decide +kernel
  rw [e2]
  refine ⟨?_, ?_⟩
  · intro c hc; cases hc
    rintro ⟨-, i, b, d, h1, h2, h3, h4, h5⟩
    rcases i with _ | _ | i
    · cases h1; cases h2
    · exact h5 0 _ _ rfl rfl rfl rfl
    · simp at h1
  have e3 : (Op.call (.insert none 1 tI [7, 8]) : Op Nat).soa
      ⟨[⟨0, 1, some ⟨0, tI, [1]⟩⟩, ⟨1, 1, some ⟨1, tS, [3]⟩⟩], 2, [], [.acq 0, .acq 1], 2⟩ =
    .ok (.ret (.iter 0), ⟨[⟨0, 3, some ⟨0, tI, [1, 7, 8]⟩⟩, ⟨3, 1, some ⟨1, tS, [3]⟩⟩], 4, [], [.acq 0, .acq 1], 2⟩) := by
    decide +kernel
  rw [e3]
  refine ⟨?_, ?_⟩
  · intro c hc; cases hc; exact id
  split <;> trivial

/-- Findings M1 and A1: after an insert in front of a block of another type the structure-of-arrays
implementation has reported the old block, the array-of-structures implementation the new one. -/
theorem C57_events_fails : ∃ os : List (Op Nat),
    ((history Op.soa os mk0).2.map St.evs = some [.acq 0, .acq 0]) ∧
    ((history Op.aos os mk0).2.map St.evs = some [.acq 0, .acq 1]) :=
  ⟨[.call (.pushBack tI 1), .call (.insert none 0 tS [2])], by decide +kernel⟩

/-- Finding A2: `transfer` of a container to itself.  The structure-of-arrays implementation throws
and changes nothing.  The array-of-structures implementation checks for this only in the overload
without a hint; with a hint it returns normally and the element is gone. -/
theorem C57_self_transfer_fails : ∃ (s : St Nat) (h : At), Reachable s ∧ contents s = [some (tM, 5)] ∧
    (∀ t, Mtv.transfer true h 0 0 0 s t = .err .invalidArg s t) ∧
    ∃ i s', Aos.transferSelf h 0 0 0 s = .ok (some i, s') ∧ contents s' = [none] ∧ s'.freed = [(tM, 5)] := by
  refine ⟨⟨[⟨0, 1, some ⟨0, tM, [5]⟩⟩], 1, [], [.acq 0], 1⟩, some none,
    ⟨.range 1 tM [5], _, [], rfl, trivial, trivial, rfl⟩, by decide +kernel, fun t => rfl, 0,
    ⟨[⟨0, 1, none⟩], 1, [(tM, 5)], [.acq 0, .rel 0], 1⟩, by decide +kernel, by decide +kernel, rfl⟩

/-- The destructor does the same. -/
theorem C57_destroy (s : St α) : Aos.destroy s = Mtv.destroy s := by rw [destroy_eq]

example : Aos.destroy (⟨[⟨0, 1, some ⟨0, tM, [5]⟩⟩], 1, [], [.acq 0], 1⟩ : St Nat) =
    .ok ((), ⟨[⟨0, 1, none⟩], 1, [(tM, 5)], [.acq 0, .rel 0], 1⟩) := by decide +kernel

/-! ### Two containers -/

/-- The same for histories over two containers, with calls and reads on either, `transfer` and `swap`
in both directions.  Partial as `C57_history_partial`. -/
theorem C57_history_pair_partial (k l : Ctor α) (os : List (Op2 α)) :
    ctorRun k = k.run ∧ ctorRun l = l.run ∧ ∀ s t, k.run = .ok s → l.run = .ok t →
      (history2 Op2.aos os s t).1 = (history2 Op2.soa os s t).1 ∧
      Option.Rel (fun p q => Alike p.1 q.1 ∧ Alike p.2 q.2) (history2 Op2.aos os s t).2
        (history2 Op2.soa os s t).2 :=
  ⟨by rw [ctorRun_eq], by rw [ctorRun_eq], fun s t _ _ => history2_agree os s t s t (Alike.refl s) (Alike.refl t)⟩

def demoOps2 : List (Op2 Nat) :=
  [.onA (.call (.resize 2)), .onA (.call (.pushBack tI 1)), .onA (.call (.pushBack tI 2)), .onA (.call (.pushBack tM 3)),
   .onB (.call (.pushBack tM 5)), .onB (.call (.pushBack tI 6)), .onB (.call (.pushBack tI 7)), .onB (.call .pushBackEmpty),
   .transferAB none 3 4 1, .swapBA 0 1 1, .onA (.get 1 tM), .onB (.get 1 tI), .swapAB 3 9 0, .swapAll, .onA .size]

example : (history2 Op2.aos demoOps2 mk0 mk0).1.drop 8 =
    [.value (.ret (.iter 2)), .value (.ret .unit), .value (.cell (some 5)), .value (.cell (some 1)), .threw .outOfRange,
     .value (.ret .unit), .value (.num 4)] := by
  decide +kernel

/-- Where no call misreports, the states of both containers are equal, event logs included. -/
theorem C57_events_pair_partial (k l : Ctor α) (os : List (Op2 α)) {s t : St α} (_ : k.run = .ok s) (_ : l.run = .ok t)
    (h : Truthful2 os s t) : history2 Op2.aos os s t = history2 Op2.soa os s t := history2_same os s t h

/-! ### Comparison -/

section
variable [DecidableEq α]

theorem equalsLoop_iff : ∀ bs cs : List (Blk α), bs.length = cs.length →
    (equalsLoop bs cs = true ↔ bs.map Blk.size = cs.map Blk.size ∧ (bs.zip cs).all (fun p => sameData p.1.data p.2.data) = true)
  | [], [], _ => by simp [equalsLoop]
  | b :: bs, c :: cs, h => by
    have ih := equalsLoop_iff bs cs (by simpa using h)
    obtain ⟨bp, bn, bd⟩ := b
    obtain ⟨cp, cn, cd⟩ := c
    unfold equalsLoop
    by_cases hn : bn = cn
    · subst hn
      cases bd <;> cases cd <;> simp [sameData, ih]
      rename_i d e
      by_cases hd : d.ty = e.ty ∧ d.vals = e.vals
      · simp [hd]
      · simp only [hd]
        simp
    · simp [hn]
  | [], _ :: _, h => by simp at h
  | _ :: _, [], h => by simp at h

theorem tiled_pos {s t : St α} (hs : Tiled s) (ht : Tiled t) (h : s.blocks.map Blk.size = t.blocks.map Blk.size) :
    s.blocks.map Blk.pos = t.blocks.map Blk.pos := by
  have hl : s.blocks.length = t.blocks.length := by simpa using congrArg List.length h
  refine List.ext_getElem (by simpa using hl) fun i h1 h2 => ?_
  simp only [List.length_map] at h1 h2
  rw [List.getElem_map, List.getElem_map]
  rw [(hs.1 i _ (List.getElem?_eq_getElem h1)).1, (ht.1 i _ (List.getElem?_eq_getElem h2)).1, List.map_take, List.map_take, h]

theorem equals_same {s t : St α} (hs : Tiled s) (ht : Tiled t) : Aos.equals s t = Mtv.equals s t := by
  rw [Bool.eq_iff_iff]
  unfold Aos.equals Mtv.equals
  by_cases hl : s.blocks.length = t.blocks.length
  · simp only [hl, not_true, if_false, ne_eq]
    by_cases hc : s.cur = t.cur
    · simp only [hc, not_true, if_false, equalsLoop_iff _ _ hl]
      simp only [Bool.and_eq_true, beq_iff_eq, true_and]
      constructor
      · rintro ⟨h1, h2⟩
        exact ⟨⟨tiled_pos hs ht h1, h1⟩, h2⟩
      · rintro ⟨⟨-, h1⟩, h2⟩
        exact ⟨h1, h2⟩
    · simp [hc]
  · simp [hl]

theorem aos_wf {s : St α} {P : List (Cell α) → Call α → Prop} (h : AosReachedBy P s) : WF Weak s := by
  obtain ⟨k, s₀, cs, h1, h2, -, h4⟩ := h
  rw [ctorRun_eq] at h1
  obtain ⟨s', h5, h6⟩ := aos_run_history weak_ne cs (wf_weaken (ctor_wf k h1)) h2 (Or.inl weak_all)
  rw [h5] at h4; cases h4
  exact h6.wf

/-- `operator==` of the array-of-structures implementation, which does not look at positions, gives
the same answer on any two containers it reaches. -/
theorem C57_equal {s t : St α} (hs : AosReachedBy (fun _ _ => True) s) (ht : AosReachedBy (fun _ _ => True) t) :
    Aos.equals s t = Mtv.equals s t :=
  equals_same ((wf_weak s).1 (aos_wf hs)).1 ((wf_weak t).1 (aos_wf ht)).1

/-- A state with runs of three types and empty cells. -/
def aosDemo : St Nat := (runAos demoCalls mk0).getD mk0

example : AosReachedBy (fun _ _ => True) aosDemo ∧ aosDemo.blocks.length = 4 ∧ Aos.equals aosDemo aosDemo = true ∧
    Aos.equals aosDemo mk0 = false := by
  refine ⟨⟨.default, mk0, demoCalls, rfl, ?_, ?_, by decide +kernel⟩, by decide +kernel, by decide +kernel, by decide +kernel⟩
  · simp [demoCalls, Along, Call.Defined, Call.at_]
  · simp [demoCalls, Along]

/-! ### The array-of-structures implementation against the specification -/

/-- Every history of defined calls runs through and shows what the specification of the sequence says;
the blocks are contiguous and as long as they say. -/
theorem C57_aos_contents (k : Ctor α) {s₀ : St α} (hk : ctorRun k = .ok s₀) (cs : List (Call α))
    (hd : Along Call.Defined (contents s₀) cs) :
    k.spec = some (contents s₀) ∧ ∃ s, runAos cs s₀ = some s ∧ contents s = specRun (contents s₀) cs ∧ Tiled s ∧ NoEmptyPair s := by
  rw [ctorRun_eq] at hk
  obtain ⟨s', h5, h6⟩ := aos_run_history weak_ne cs (wf_weaken (ctor_wf k hk)) hd (Or.inl weak_all)
  have hw := (wf_weak s').1 h6.wf
  refine ⟨?_, s', h5, by rw [contents_eq]; exact h6.cells, hw.1, hw.2⟩
  have := C28_construct k
  cases e : k.spec with
  | none => rw [e] at this; rw [this] at hk; cases hk
  | some L =>
    rw [e] at this
    obtain ⟨s, h1, h2⟩ := this
    rw [h1] at hk; cases hk
    rw [h2]

example : contents aosDemo = specRun [] demoCalls ∧ (contents aosDemo).length = 7 := by decide +kernel

/-- Every history over two containers. -/
theorem C57_aos_contents_pair (k l : Ctor α) {s₀ t₀ : St α} (hk : ctorRun k = .ok s₀) (hl : ctorRun l = .ok t₀)
    (cs : List (Call2 α)) (hd : Along2 Call2.Defined (contents2 s₀ t₀) cs) :
    ∃ s t, runAos2 cs s₀ t₀ = some (s, t) ∧ (contents s, contents t) = specRun2 (contents2 s₀ t₀) cs ∧ Tiled s ∧ Tiled t := by
  rw [ctorRun_eq] at hk hl
  obtain ⟨s', t', h5, h6⟩ := aos_run_history2 weak_ne cs (wf_weaken (ctor_wf k hk)) (wf_weaken (ctor_wf l hl)) hd (Or.inl weak_all)
  exact ⟨s', t', h5, Prod.ext h6.left h6.right, ((wf_weak s').1 h6.wfs).1, ((wf_weak t').1 h6.wft).1⟩

/-! ### C36: ownership in the array-of-structures implementation -/

/-- At every moment each managed object given to the container is counted once: it is destroyed, stored
or was handed back.  Partial: for histories without the calls described by `Call.NoLeak` (finding M2,
which this implementation has too: `C36_aos_leak_fails`). -/
theorem C36_aos_ledger_partial (k : Ctor α) {s₀ s : St α} (hk : ctorRun k = .ok s₀) (cs : List (Call α))
    (hd : Along Call.Defined (contents s₀) cs) (hl : Along Call.NoLeak (contents s₀) cs) (hr : runAos cs s₀ = some s)
    (z : Ty × α) (hz : z.1.managed = true) :
    s.freed.count z + (contents s).count (some z) + (handedBy (contents s₀) cs).count z
      = k.given.count z + (givenBy (contents s₀) cs).count z := by
  rw [ctorRun_eq] at hk
  obtain ⟨s', h5, h6⟩ := aos_run_history weak_ne cs (wf_weaken (ctor_wf k hk)) hd (Or.inl weak_all)
  rw [h5] at hr; cases hr
  have h1 := h6.led hl z hz
  have h2 := ctor_ledger k hk z
  rw [← contents_eq, ← contents_eq] at h1
  omega

/-- Over the whole life of a container, every managed object given to it is destroyed exactly once
unless it was handed back, in which case it is not destroyed.  Partial: as above. -/
theorem C36_aos_lifetime_partial (k : Ctor α) {s₀ s : St α} (hk : ctorRun k = .ok s₀) (cs : List (Call α))
    (hd : Along Call.Defined (contents s₀) cs) (hl : Along Call.NoLeak (contents s₀) cs) (hr : runAos cs s₀ = some s) :
    ∃ s', Aos.destroy s = .ok ((), s') ∧ ∀ z : Ty × α, z.1.managed = true →
      s'.freed.count z + (handedBy (contents s₀) cs).count z = k.given.count z + (givenBy (contents s₀) cs).count z := by
  rw [destroy_eq]
  obtain ⟨s₁, s₂, h1, h2, h3, -⟩ := destroy_clear s
  refine ⟨s₂, h2, fun z hz => ?_⟩
  have hw : WF Weak s := aos_wf (P := fun _ _ => True) ⟨k, s₀, cs, hk, hd, along_and (fun _ _ _ => trivial) hl, hr⟩
  obtain ⟨_, s₁', h4, h5⟩ := clear_eff Weak s.blocks s.cur s.freed s.evs s.next s rfl hw
  rw [h1] at h4; cases h4
  have h6 := h5.led trivial z hz
  have h7 := C36_aos_ledger_partial k hk cs hd hl hr z hz
  rw [h5.cells] at h6
  rw [← contents_eq] at h6
  simp only [List.count_nil] at h6
  rw [h3]
  omega

example : ctorRun (.default : Ctor Nat) = .ok mk0 ∧ Along Call.Defined (contents (mk0 : St Nat)) ownCalls ∧
    Along Call.NoLeak (contents (mk0 : St Nat)) ownCalls ∧ (runAos ownCalls (mk0 : St Nat)).isSome ∧ tM.managed = true :=
  ⟨rfl, own_defined, own_noLeak, by decide +kernel, rfl⟩

/-- Finding M2: the object 3 is overwritten but never destroyed, in this implementation too. -/
theorem C36_aos_leak_fails : ∃ s s' : St Nat, AosReachedBy (fun _ _ => True) s ∧ runAos leakCalls mk0 = some s ∧
    Aos.destroy s = .ok ((), s') ∧
    some (tN, 3) ∉ contents s ∧ (tN, 3) ∈ givenBy [] leakCalls ∧ (tN, 3) ∉ s'.freed ∧ handedBy [] leakCalls = [] := by
  refine ⟨(runAos leakCalls mk0).getD mk0, ((Aos.destroy ((runAos leakCalls mk0).getD mk0)).state).getD mk0,
    ⟨.default, mk0, leakCalls, rfl, ?_, ?_, by decide +kernel⟩, by decide +kernel, by decide +kernel, by decide +kernel, by decide +kernel, by decide +kernel, by decide +kernel⟩
  · simp [leakCalls, Along, Call.Defined, Call.at_]
  · simp [leakCalls, Along]

/-- Two containers: each managed object given to either is counted once.  Partial: as above. -/
theorem C36_aos_ledger_pair_partial (k l : Ctor α) {s₀ t₀ s t : St α} (hk : ctorRun k = .ok s₀) (hl : ctorRun l = .ok t₀)
    (cs : List (Call2 α)) (hd : Along2 Call2.Defined (contents2 s₀ t₀) cs)
    (hn : Along2 Call2.NoLeak (contents2 s₀ t₀) cs) (hr : runAos2 cs s₀ t₀ = some (s, t))
    (z : Ty × α) (hz : z.1.managed = true) :
    s.freed.count z + t.freed.count z + (contents s).count (some z) + (contents t).count (some z)
        + (handedBy2 (contents2 s₀ t₀) cs).count z
      = k.given.count z + l.given.count z + (givenBy2 (contents2 s₀ t₀) cs).count z := by
  rw [ctorRun_eq] at hk hl
  obtain ⟨s', t', h6, h7⟩ := aos_run_history2 weak_ne cs (wf_weaken (ctor_wf k hk)) (wf_weaken (ctor_wf l hl)) hd (Or.inl weak_all)
  rw [h6] at hr; cases hr
  have h1 := h7.led hn z hz
  have h2 := ctor_ledger k hk z
  have h3 := ctor_ledger l hl z
  omega

example : Along2 Call2.Defined (contents2 (mk0 : St Nat) mk0) ownCalls2 ∧ (runAos2 ownCalls2 mk0 mk0).isSome :=
  ⟨own2_defined, by decide +kernel⟩

/-! ### C37: events of the array-of-structures implementation -/

/-- Every block is reported acquired exactly once more than released while the container holds it, and
equally often otherwise.  Partial: without the range `set` described by `Reports`; false otherwise
(`C37_aos_set_fails`).  Unlike the structure-of-arrays implementation, `insert` and unmerged
neighbours need no exception. -/
theorem C37_aos_events_partial {s : St α} (h : AosReachedBy Reports s) (i : Nat) :
    acquiredCount i s = releasedCount i s + (liveBlocks s).count i := by
  obtain ⟨k, s₀, cs, h1, h2, h3, h4⟩ := h
  rw [ctorRun_eq] at h1
  obtain ⟨s', h5, h6⟩ := aos_run_history weak_ne cs (wf_weaken (ctor_wf k h1)) h2 (Or.inl weak_all)
  rw [h5] at h4; cases h4
  have h7 := h6.ev h3 i
  have h0 := ctor_events k h1 i
  rw [liveBlocks_eq]
  unfold acquiredCount releasedCount
  unfold acqs rels at *
  omega

/-- The history of `C37_insert_fails`. -/
def insertCalls : List (Call Nat) := [.pushBack tI 1, .insert none 0 tS [2], .pushBack tI 3, .insert none 2 tM [4, 5], .erase 1 1]

def insertState : St Nat := (runAos insertCalls mk0).getD mk0

example : AosReachedBy Reports insertState ∧ acquiredCount 1 insertState = 1 ∧ (liveBlocks insertState) = [1, 2, 3] :=
  ⟨⟨.default, mk0, insertCalls, rfl,
    by simp [insertCalls, Along, Call.Defined, Call.at_], by simp [insertCalls, Along, Reports], by decide +kernel⟩,
    by decide +kernel, by decide +kernel⟩

/-- A range `set` into the front of a block of another type replaces the block object without a
notification here as well. -/
theorem C37_aos_set_fails : ∃ s : St Nat, AosReachedBy (fun _ _ => True) s ∧ ∃ i ∈ liveBlocks s, acquiredCount i s = 0 := by
  refine ⟨(runAos [.pushBack tI 1, .pushBack tI 2, .pushBack tI 3, .setRange none 0 tS [4, 5]] mk0).getD mk0,
    ⟨.default, mk0, [.pushBack tI 1, .pushBack tI 2, .pushBack tI 3, .setRange none 0 tS [4, 5]], rfl, ?_, ?_,
      by decide +kernel⟩, ?_⟩
  · simp [Along, Call.Defined, Call.at_]
  · simp [Along]
  · decide +kernel

/-- Two containers of the array-of-structures implementation.  Partial as `C37_aos_events_partial`;
blocks that have one number because both containers count from zero are counted together. -/
theorem C37_aos_events_pair_partial {s t : St α} (h : AosReachedBy2 (Call2.Each Reports) s t) (i : Nat) :
    acquiredCount i s = releasedCount i s + (liveBlocks s).count i ∧
    acquiredCount i t = releasedCount i t + (liveBlocks t).count i := by
  obtain ⟨k, l, s₀, t₀, cs, h1, h2, h3, h4, h5⟩ := h
  rw [ctorRun_eq] at h1 h2
  obtain ⟨s', t', h6, h7⟩ := aos_run_history2 weak_ne cs (wf_weaken (ctor_wf k h1)) (wf_weaken (ctor_wf l h2)) h3
    (Or.inl weak_all)
  rw [h6] at h5; cases h5
  have a1 := h7.ev h4 (ctor_events k h1) (ctor_events l h2) i
  unfold BalAt at a1
  rw [liveBlocks_eq, liveBlocks_eq]
  unfold acqs rels at *
  unfold acquiredCount releasedCount
  omega

/-- Inserts the structure-of-arrays implementation misreports, and a transfer. -/
def pairInsertCalls : List (Call2 Nat) :=
  [.onA (.pushBack tI 1), .onA (.insert none 0 tS [2, 3]), .onB (.pushBack tM 4), .onB (.insert none 0 tI [5]),
   .transferAB none 0 0 1, .swapAll]

example : AosReachedBy2 (Call2.Each Reports) ((runAos2 pairInsertCalls (mk0 : St Nat) mk0).getD (mk0, mk0)).1
    ((runAos2 pairInsertCalls mk0 mk0).getD (mk0, mk0)).2 := by
  refine ⟨.default, .default, mk0, mk0, pairInsertCalls, rfl, rfl, ?_, ?_, by decide +kernel⟩
  · simp [pairInsertCalls, Along2, Call2.Defined, Call.Defined, Call.at_, contents2, mk0, contents, Call2.after, Call2.spec, Call.spec, moveCells, typeAt]
  · simp [pairInsertCalls, Along2, Call2.Each, Reports]

end

end Mdds.Aos
