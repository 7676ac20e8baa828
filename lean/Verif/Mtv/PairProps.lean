import Verif.Mtv.PairHistory
import Verif.Mtv.Props

/-!
# multi_type_vector: properties of calls on two containers

C33 (`transfer`) and the parts of C36, C37 and C56 that concern two containers.
-/

namespace Mdds.Mtv

set_option linter.unusedSectionVars false

variable {α : Type} [DecidableEq α]

/-! ### Reachable pairs -/

theorem reachable2_wf {s t : St α} (h : Reachable2 s t) : WF Weak s ∧ WF Weak t := by
  obtain ⟨k, l, s₀, t₀, cs, h1, h2, h3, -, h5⟩ := h
  obtain ⟨s', t', h6, h7⟩ := run_history2 weak_ne cs (wf_weaken (ctor_wf k h1)) (wf_weaken (ctor_wf l h2)) h3 (Or.inl weak_all)
  rw [h6] at h5; cases h5
  exact ⟨h7.wfs, h7.wft⟩

theorem along2_and {P Q : Pair α → Call2 α → Prop} {p : Pair α} {cs : List (Call2 α)} (h : ∀ p c, P p c → Q p c)
    (hp : Along2 P p cs) : Along2 Q p cs := by
  induction cs generalizing p with
  | nil => trivial
  | cons c cs ih => exact ⟨h _ _ hp.1, ih hp.2⟩

theorem reachedBy2_reachable {P : Pair α → Call2 α → Prop} {s t : St α} (h : ReachedBy2 P s t) : Reachable2 s t := by
  obtain ⟨k, l, s₀, t₀, cs, h1, h2, h3, h4, h5⟩ := h
  exact ⟨k, l, s₀, t₀, cs, h1, h2, h3, along2_and (fun _ _ _ => trivial) h4, h5⟩

/-- The history behind the example pair. -/
def pairCalls : List (Call2 Nat) :=
  [.onA (.resize 2), .onA (.pushBack tI 1), .onA (.pushBack tI 2), .onA (.pushBack tS 3), .onA (.pushBack tS 4),
   .onB (.pushBack tS 5), .onB (.pushBack tI 6), .onB (.pushBack tI 7), .onB (.pushBack tI 8), .onB .pushBackEmpty,
   .transferAB none 3 4 1]

def pairA : St Nat := ((runAll2 pairCalls mk0 mk0).getD (mk0, mk0)).1
def pairB : St Nat := ((runAll2 pairCalls mk0 mk0).getD (mk0, mk0)).2

theorem pair_reached : ReachedBy2 (Call2.Each Call.NoGap) pairA pairB :=
  ⟨.default, .default, mk0, mk0, pairCalls, rfl, rfl, by simp [pairCalls, Along2, Call2.Defined, Call.Defined, Call.at_, contents2, mk0, contents, Call2.after, Call2.spec, Call.spec, typeAt],
    by simp [pairCalls, Along2, Call2.Each, Call.NoGap], by decide +kernel⟩

theorem pair_reachable : Reachable2 pairA pairB := reachedBy2_reachable pair_reached

theorem pair_contents : contents pairA = [none, none, some (tI, 1), none, none, some (tS, 4)] ∧
    contents pairB = [some (tS, 5), some (tI, 2), some (tS, 3), some (tI, 8), none] := by decide +kernel

/-! ### C33 -/

/-- `transfer` moves exactly the cells of the range: they replace the cells of the destination
from `dest` on and become empty in the source, everything else stays, and the returned iterator
points to the emptied range.  When one of the ranges does not exist it throws and changes
neither container. -/
theorem C33_transfer {s t : St α} (h : Reachable2 s t) (hint : At) (hh : HintOk hint s) (first last dest : Nat) :
    if first ≤ last ∧ last < (contents s).length ∧ dest + (last - first + 1) ≤ (contents t).length then
      ∃ i s' t', transfer false hint first last dest s t = .ok i s' t' ∧
        contents s' = (contents s).take first ++ List.replicate (last - first + 1) none ++ (contents s).drop (last + 1) ∧
        contents t' = (contents t).take dest ++ ((contents s).drop first).take (last - first + 1)
          ++ (contents t).drop (dest + (last - first + 1)) ∧
        pointsTo s' i first
    else transfer false hint first last dest s t = .err .outOfRange s t := by
  obtain ⟨h1, h2⟩ := reachable2_wf h
  have := transfer_eff weak_ne h1 h2 hint first last dest (defined_hint hh)
  unfold moveCells at this
  split <;> rename_i hc
  · simp only [if_pos hc] at this
    obtain ⟨r, s', t', e, h3, h4⟩ := this
    exact ⟨r, s', t', e, h3.left, h3.right, h4⟩
  · simp only [if_neg hc] at this
    exact this

example : Reachable2 pairA pairB ∧ HintOk (some (some 2)) pairA ∧ 1 ≤ 3 ∧ 3 < (contents pairA).length ∧
    0 + (3 - 1 + 1) ≤ (contents pairB).length := by
  refine ⟨pair_reachable, Or.inr ?_, by decide, ?_, ?_⟩ <;> first | (rw [pair_contents.1]; decide) | (rw [pair_contents.2]; decide)

/-- `transfer` to the container itself throws and changes nothing. -/
theorem C33_self (hint : At) (first last dest : Nat) (s : St α) :
    transfer true hint first last dest s s = .err .invalidArg s s := transfer_self hint first last dest s s

example : transfer true none 0 1 2 pairA pairA = .err .invalidArg pairA pairA := by decide +kernel

/-- Nothing is destroyed in the source; in the destination exactly the replaced managed objects
are destroyed, each once. -/
theorem C33_objects {s t : St α} (h : Reachable2 s t) (hint : At) (first last dest i : Nat) (s' t' : St α)
    (hr : transfer false hint first last dest s t = .ok i s' t') (hh : HintOk hint s) (z : Ty × α) (hz : z.1.managed = true) :
    s'.freed.count z = s.freed.count z ∧
    t'.freed.count z = t.freed.count z + (((contents t).drop dest).take (last - first + 1)).count (some z) := by
  obtain ⟨h1, h2⟩ := reachable2_wf h
  have hl : (contents s).length = s.cur := by rw [contents_eq]; exact cells_length h1
  have hl' : (contents t).length = t.cur := by rw [contents_eq]; exact cells_length h2
  have hb : first ≤ last ∧ last < s.cur ∧ dest + (last - first + 1) ≤ t.cur := by
    by_contra hc
    have hn : hint = none ∨ 0 < s.cur := by
      rcases hh with hh | hh
      · exact .inl hh
      · right; rw [← hl]; exact List.length_pos_iff.2 hh
    rw [transfer_out h1 hint hn hc] at hr
    cases hr
  obtain ⟨r, s1, t1, e, h3, h4, -⟩ := transfer_in weak_ne h1 h2 hint hb.1 hb.2.1 hb.2.2
  rw [e] at hr; cases hr
  have a1 := h3.led.led z hz
  have a2 := h4.led.led z hz
  rw [h3.cells, splice_eq] at a1
  rw [h4.cells, splice_eq] at a2
  have b1 := count_split (L := contents s) first (last - first + 1) z
  have b2 := count_split (L := contents t) dest (last - first + 1) z
  simp only [valuesOf, count_fm] at b1 b2
  rw [contents_eq] at b1 b2 ⊢
  simp only [List.count_append, List.count_nil, List.count_replicate] at a1 a2 b1 b2
  simp at a1 a2 b1 b2
  constructor <;> omega

/-! ### Histories -/

/-- A whole history over two containers does to the pair of sequences what its calls say, and
never meets undefined behaviour. -/
theorem C33_history (k l : Ctor α) {s₀ t₀ : St α} (hk : k.run = .ok s₀) (hl : l.run = .ok t₀) (cs : List (Call2 α))
    (hd : Along2 Call2.Defined (contents2 s₀ t₀) cs) :
    ∃ s t, runAll2 cs s₀ t₀ = some (s, t) ∧ contents2 s t = specRun2 (contents2 s₀ t₀) cs := by
  obtain ⟨s', t', h6, h7⟩ := run_history2 weak_ne cs (wf_weaken (ctor_wf k hk)) (wf_weaken (ctor_wf l hl)) hd (Or.inl weak_all)
  exact ⟨s', t', h6, Prod.ext h7.left h7.right⟩

example : Along2 Call2.Defined (contents2 mk0 mk0) pairCalls ∧ pairCalls.length = 11 := by
  refine ⟨?_, rfl⟩
  obtain ⟨_, _, _, _, _, _⟩ := pair_reached
  simp [pairCalls, Along2, Call2.Defined, Call.Defined, Call.at_, contents2, mk0, contents, Call2.after, Call2.spec, Call.spec, typeAt]

/-- C30 for histories over two containers: both containers keep their block structure. -/
theorem C30_tiled_pair {s t : St α} (h : Reachable2 s t) : Tiled s ∧ NoEmptyPair s ∧ Tiled t ∧ NoEmptyPair t := by
  obtain ⟨h1, h2⟩ := reachable2_wf h
  exact ⟨((wf_weak s).1 h1).1, ((wf_weak s).1 h1).2, ((wf_weak t).1 h2).1, ((wf_weak t).1 h2).2⟩

example : Reachable2 pairA pairB ∧ pairA.blocks.length = 4 ∧ pairB.blocks.length = 5 :=
  ⟨pair_reachable, by decide +kernel, by decide +kernel⟩

theorem nogap2_wf {s t : St α} (h : ReachedBy2 (Call2.Each Call.NoGap) s t) : WF Strict s ∧ WF Strict t := by
  obtain ⟨k, l, s₀, t₀, cs, h1, h2, h3, h4, h5⟩ := h
  obtain ⟨s', t', h6, h7⟩ := run_history2 strict_ne cs (ctor_wf k h1) (ctor_wf l h2) h3 (Or.inr h4)
  rw [h6] at h5; cases h5
  exact ⟨h7.wfs, h7.wft⟩

/-- No two neighbours have one type.  Partial: as in `C30_canonical_partial`. -/
theorem C30_canonical_pair_partial {s t : St α} (h : ReachedBy2 (Call2.Each Call.NoGap) s t) : Canonical s ∧ Canonical t :=
  ⟨((wf_canon s).1 (nogap2_wf h).1).2, ((wf_canon t).1 (nogap2_wf h).2).2⟩

example : ReachedBy2 (Call2.Each Call.NoGap) pairA pairB := pair_reached

/-- At every moment each managed object given to either container is counted once: it is
destroyed by one of them, stored in one of them or was handed back.  Partial: for histories
without the calls described by `Call.NoLeak` (finding M2). -/
theorem C36_ledger_pair_partial (k l : Ctor α) {s₀ t₀ s t : St α} (hk : k.run = .ok s₀) (hl : l.run = .ok t₀)
    (cs : List (Call2 α)) (hd : Along2 Call2.Defined (contents2 s₀ t₀) cs)
    (hn : Along2 Call2.NoLeak (contents2 s₀ t₀) cs) (hr : runAll2 cs s₀ t₀ = some (s, t))
    (z : Ty × α) (hz : z.1.managed = true) :
    s.freed.count z + t.freed.count z + (contents s).count (some z) + (contents t).count (some z)
        + (handedBy2 (contents2 s₀ t₀) cs).count z
      = k.given.count z + l.given.count z + (givenBy2 (contents2 s₀ t₀) cs).count z := by
  obtain ⟨s', t', h6, h7⟩ := run_history2 weak_ne cs (wf_weaken (ctor_wf k hk)) (wf_weaken (ctor_wf l hl)) hd (Or.inl weak_all)
  rw [h6] at hr; cases hr
  have h1 := h7.led hn z hz
  have h2 := ctor_ledger k hk z
  have h3 := ctor_ledger l hl z
  omega

/-- For objects all different from one another: destroyed at most once by either container, and
never while stored in one of them or after having been handed back. -/
theorem C36_once_pair_partial (k l : Ctor α) {s₀ t₀ s t : St α} (hk : k.run = .ok s₀) (hl : l.run = .ok t₀)
    (cs : List (Call2 α)) (hd : Along2 Call2.Defined (contents2 s₀ t₀) cs)
    (hn : Along2 Call2.NoLeak (contents2 s₀ t₀) cs) (hr : runAll2 cs s₀ t₀ = some (s, t))
    (hu : (k.given ++ l.given ++ givenBy2 (contents2 s₀ t₀) cs).Nodup) (z : Ty × α) (hz : z.1.managed = true) :
    s.freed.count z + t.freed.count z ≤ 1 ∧ (z ∈ s.freed ++ t.freed →
      some z ∉ contents s ∧ some z ∉ contents t ∧ z ∉ handedBy2 (contents2 s₀ t₀) cs) := by
  have h := C36_ledger_pair_partial k l hk hl cs hd hn hr z hz
  have h1 : (k.given ++ l.given ++ givenBy2 (contents2 s₀ t₀) cs).count z ≤ 1 := List.nodup_iff_count.1 hu z
  rw [List.count_append, List.count_append] at h1
  refine ⟨by omega, fun hf => ?_⟩
  have hp := List.count_pos_iff.2 hf
  rw [List.count_append] at hp
  refine ⟨?_, ?_, ?_⟩ <;>
  · intro hc; have := List.count_pos_iff.2 hc; omega

/-- Managed objects on both sides; a transfer that replaces two of them. -/
def ownCalls2 : List (Call2 Nat) :=
  [.onA (.resize 1), .onA (.pushBack tM 1), .onA (.pushBack tM 2), .onA (.pushBack tN 3), .onA (.pushBack tN 4),
   .onB (.pushBack tN 5), .onB (.pushBack tN 6), .onB (.pushBack tM 7), .onB (.pushBack tM 8),
   .transferAB none 2 3 1, .transferBA (some (some 1)) 2 2 0, .onB (.release none 0 tN), .onA (.erase 0 1)]

theorem own2_defined : Along2 Call2.Defined (contents2 (mk0 : St Nat) mk0) ownCalls2 := by
  simp [ownCalls2, Along2, Call2.Defined, Call.Defined, Call.at_, contents2, mk0, contents, Call2.after, Call2.spec, Call.spec, moveCells, typeAt]

theorem own2_noLeak : Along2 Call2.NoLeak (contents2 (mk0 : St Nat) mk0) ownCalls2 := by
  simp [ownCalls2, Along2, Call2.NoLeak, Call.NoLeak]

example : Along2 Call2.Defined (contents2 (mk0 : St Nat) mk0) ownCalls2 ∧
    Along2 Call2.NoLeak (contents2 (mk0 : St Nat) mk0) ownCalls2 ∧ (runAll2 ownCalls2 (mk0 : St Nat) mk0).isSome ∧
    (givenBy2 (contents2 (mk0 : St Nat) mk0) ownCalls2).Nodup ∧
    handedBy2 (contents2 (mk0 : St Nat) mk0) ownCalls2 = [(tN, 5)] :=
  ⟨own2_defined, own2_noLeak, by decide +kernel, by decide +kernel, by decide +kernel⟩

/-- Number of acquired notifications. -/
def acquiredTotal (s : St α) : Nat := (s.evs.filter fun e => match e with | .acq _ => true | .rel _ => false).length
/-- Number of released notifications. -/
def releasedTotal (s : St α) : Nat := (s.evs.filter fun e => match e with | .acq _ => false | .rel _ => true).length

theorem acquiredTotal_eq (s : St α) : acquiredTotal s = nacq s.evs := by
  unfold acquiredTotal
  rw [← List.countP_eq_length_filter]
  unfold nacq; congr 1

theorem releasedTotal_eq (s : St α) : releasedTotal s = nrel s.evs := by
  unfold releasedTotal
  rw [← List.countP_eq_length_filter]
  unfold nrel; congr 1; funext e; cases e <;> rfl

theorem ctor_count (k : Ctor α) {s₀ : St α} (h : k.run = .ok s₀) :
    nacq s₀.evs = nrel s₀.evs + (ids s₀.blocks).length := by
  cases k with
  | default => cases h; rfl
  | sized n => cases h; by_cases hn : n = 0 <;> simp [mkSize, hn, mk0]
  | range n ty vs =>
    simp only [Ctor.run, mkRange] at h
    split at h
    · cases h; rfl
    · split at h
      · cases h
      · cases h; rfl

theorem ctor_events (k : Ctor α) {s₀ : St α} (h : k.run = .ok s₀) (i : Nat) :
    acqs i s₀.evs = rels i s₀.evs + (ids s₀.blocks).count i := by
  have := C37_events_partial (s := s₀) ⟨k, s₀, [], h, trivial, trivial, rfl⟩ i
  rw [liveBlocks_eq] at this
  exact this

/-- The state before the first transfer of `ownCalls2`: it replaces the objects 6 and 7. -/
def ownPair : St Nat × St Nat := (runAll2 (ownCalls2.take 9) mk0 mk0).getD (mk0, mk0)

example : Reachable2 ownPair.1 ownPair.2 ∧ (∃ i s' t', transfer false none 2 3 1 ownPair.1 ownPair.2 = .ok i s' t') ∧
    (((contents ownPair.2).drop 1).take (3 - 2 + 1)).count (some (tM, 7)) = 1 := by
  refine ⟨⟨.default, .default, mk0, mk0, ownCalls2.take 9, rfl, rfl, ?_, by simp [ownCalls2, Along2], by decide +kernel⟩, ?_,
    by decide +kernel⟩
  · simp [ownCalls2, Along2, Call2.Defined, Call.Defined, Call.at_, contents2, mk0, contents, Call2.after, Call2.spec, Call.spec, typeAt]
  · match h : transfer false none 2 3 1 ownPair.1 ownPair.2 with
    | .ok i s' t' => exact ⟨i, s', t', rfl⟩
    | .err e s' t' => exact absurd (show (match transfer false none 2 3 1 ownPair.1 ownPair.2 with | .ok .. => true | _ => false) = true by decide +kernel) (by simp [h])
    | .ub => exact absurd (show (match transfer false none 2 3 1 ownPair.1 ownPair.2 with | .ok .. => true | _ => false) = true by decide +kernel) (by simp [h])

/-- The number of acquired minus released notifications of each container is the number of
element blocks it holds, also when blocks wander between containers. -/
theorem C37_count_pair {s t : St α} (h : Reachable2 s t) :
    acquiredTotal s = releasedTotal s + (liveBlocks s).length ∧ acquiredTotal t = releasedTotal t + (liveBlocks t).length := by
  obtain ⟨k, l, s₀, t₀, cs, h1, h2, h3, -, h5⟩ := h
  obtain ⟨s', t', h6, h7⟩ := run_history2 weak_ne cs (wf_weaken (ctor_wf k h1)) (wf_weaken (ctor_wf l h2)) h3 (Or.inl weak_all)
  rw [h6] at h5; cases h5
  have a1 := h7.evn (ctor_count k h1) (ctor_count l h2)
  unfold Bal at a1
  rw [liveBlocks_eq, liveBlocks_eq, acquiredTotal_eq, acquiredTotal_eq, releasedTotal_eq, releasedTotal_eq]
  omega

example : Reachable2 pairA pairB ∧ (liveBlocks pairA).length = 2 ∧ (liveBlocks pairB).length = 4 :=
  ⟨pair_reachable, by decide +kernel, by decide +kernel⟩

/-- In each container every block is reported acquired exactly once more than released while the
container holds it, and equally often otherwise.  Partial: as in `C37_events_partial`; blocks
that have one number because both containers count from zero are counted together. -/
theorem C37_events_pair_partial {s t : St α}
    (h : ReachedBy2 (Call2.Each fun L c => c.NoGap L ∧ c.NoMiss L) s t) (i : Nat) :
    acquiredCount i s = releasedCount i s + (liveBlocks s).count i ∧
    acquiredCount i t = releasedCount i t + (liveBlocks t).count i := by
  obtain ⟨k, l, s₀, t₀, cs, h1, h2, h3, h4, h5⟩ := h
  have g1 : Along2 (Call2.Each Call.NoGap) (contents2 s₀ t₀) cs :=
    along2_and (fun p c hc => by cases c <;> first | exact hc.1 | trivial) h4
  have g2 : Along2 (Call2.Each Call.NoMiss) (contents2 s₀ t₀) cs :=
    along2_and (fun p c hc => by cases c <;> first | exact hc.2 | trivial) h4
  obtain ⟨s', t', h6, h7⟩ := run_history2 strict_ne cs (ctor_wf k h1) (ctor_wf l h2) h3 (Or.inr g1)
  rw [h6] at h5; cases h5
  have a1 := h7.ev ⟨fun _ h => h, g2⟩ (ctor_events k h1) (ctor_events l h2) i
  unfold BalAt at a1
  rw [liveBlocks_eq, liveBlocks_eq]
  unfold acqs rels at *
  unfold acquiredCount releasedCount
  omega

example : ReachedBy2 (Call2.Each fun L c => c.NoGap L ∧ c.NoMiss L) pairA pairB ∧ (liveBlocks pairB).count 2 = 1 :=
  ⟨⟨.default, .default, mk0, mk0, pairCalls, rfl, rfl, by simp [pairCalls, Along2, Call2.Defined, Call.Defined, Call.at_, contents2, mk0, contents, Call2.after, Call2.spec, Call.spec, typeAt],
    by simp [pairCalls, Along2, Call2.Each, Call.NoGap, Call.NoMiss], by decide +kernel⟩, by decide +kernel⟩

/-- C56 for calls on two containers: a call that throws has changed neither of them. -/
theorem C56_failed_call_pair {s t : St α} (h : Reachable2 s t) (c : Call2 α) (hd : c.Defined (contents2 s t)) (e : Err)
    (s' t' : St α) (he : c.run s t = .err e s' t') :
    s' = s ∧ t' = t ∧ e = .outOfRange ∧ c.spec (contents2 s t) = none := by
  obtain ⟨h1, h2⟩ := reachable2_wf h
  have := call2_eff weak_ne h1 h2 c hd (Or.inl weak_all)
  split at this <;> rename_i hs
  · obtain ⟨r, s1, t1, h1, -⟩ := this
    rw [h1] at he; cases he
  · rw [this] at he; cases he; exact ⟨rfl, rfl, rfl, hs⟩

example : Reachable2 pairA pairB ∧ (Call2.transferAB none 1 4 3 : Call2 Nat).Defined (contents2 pairA pairB) ∧
    (Call2.transferAB none 1 4 3).run pairA pairB = .err .outOfRange pairA pairB :=
  ⟨pair_reachable, by simp [Call2.Defined], by decide +kernel⟩

/-- C32 for `transfer`: whatever the hint, it does exactly what it does without it. -/
theorem C32_hint_transfer {s t : St α} (h : Reachable2 s t) (hn : contents s ≠ []) (hint : At) (first last dest : Nat) :
    transfer false hint first last dest s t = transfer false none first last dest s t := by
  have hw := (reachable2_wf h).1
  have hl : (contents s).length = s.cur := by rw [contents_eq]; exact cells_length hw
  have hc : 0 < s.cur := by rw [← hl]; exact List.length_pos_iff.2 hn
  have : lookup hint first s = lookup none first s := by
    by_cases hp : first < s.cur
    · obtain ⟨pre, b, post, a, e1, e2, e3, e4, -⟩ := lookup_in hw hint hp
      have e5 := getBlockPosition_ok (row := first) (start := 0) e1 hw.tile hw.cur (by omega) (by omega) (by omega)
      rw [e4]; exact e5.symm
    · rw [lookup_out hw hint (by omega) (.inr hc), lookup_out hw none (by omega) (.inl rfl)]
  unfold transfer
  simp only [Bool.false_eq_true, if_false, bind2_apply, onSrc_ap, this]

example : Reachable2 pairA pairB ∧ contents pairA ≠ [] := ⟨pair_reachable, by rw [pair_contents.1]; decide⟩

end Mdds.Mtv
