import Verif.Mtv.PairProps

/-!
# multi_type_vector: properties of `swap`

C34 and the part of C36 that concerns range `swap`.
-/

namespace Mdds.Mtv

set_option linter.unusedSectionVars false

variable {α : Type} [DecidableEq α]

/-- The history behind the example pair: swaps of ranges over several blocks, in both directions,
after the calls of `pairCalls`. -/
def swapCalls : List (Call2 Nat) := pairCalls ++ [.swapAB 2 5 0, .swapBA 1 3 1, .swapAB 0 1 3, .swapAll]

def swapS : St Nat := ((runAll2 swapCalls mk0 mk0).getD (mk0, mk0)).1
def swapT : St Nat := ((runAll2 swapCalls mk0 mk0).getD (mk0, mk0)).2

theorem swap_defined : Along2 Call2.Defined (contents2 (mk0 : St Nat) mk0) swapCalls := by
  simp [swapCalls, pairCalls, Along2, Call2.Defined, Call.Defined, Call.at_, contents2, mk0, contents, Call2.after, Call2.spec, Call.spec, typeAt]

theorem swap_reachable : Reachable2 swapS swapT :=
  ⟨.default, .default, mk0, mk0, swapCalls, rfl, rfl, swap_defined, by simp [swapCalls, pairCalls, Along2], by decide +kernel⟩

theorem swap_contents : contents swapS = [some (tI, 1), none, some (tS, 5), none, none] ∧
    contents swapT = [some (tI, 2), none, none, some (tS, 4), some (tS, 3), some (tI, 8)] := by decide +kernel

/-- Range `swap` exchanges exactly the cells of the two ranges; everything else stays.  When one
of the ranges does not exist it throws and changes neither container. -/
theorem C34_swap {s t : St α} (h : Reachable2 s t) (first last dest : Nat) :
    if first ≤ last ∧ last < (contents s).length ∧ dest + (last - first + 1) ≤ (contents t).length then
      ∃ s' t', swapRange first last dest s t = .ok () s' t' ∧
        contents s' = (contents s).take first ++ ((contents t).drop dest).take (last - first + 1)
          ++ (contents s).drop (last + 1) ∧
        contents t' = (contents t).take dest ++ ((contents s).drop first).take (last - first + 1)
          ++ (contents t).drop (dest + (last - first + 1))
    else swapRange first last dest s t = .err .outOfRange s t := by
  obtain ⟨h1, h2⟩ := reachable2_wf h
  have := swap_eff weak_ne h1 h2 first last dest
  unfold exchangeCells at this
  split <;> rename_i hc
  · simp only [if_pos hc] at this
    obtain ⟨r, s', t', e, h3⟩ := this
    exact ⟨s', t', e, h3.left, h3.right⟩
  · simp only [if_neg hc] at this
    exact this

example : Reachable2 swapS swapT ∧ 1 ≤ 4 ∧ 4 < (contents swapS).length ∧ 2 + (4 - 1 + 1) ≤ (contents swapT).length := by
  refine ⟨swap_reachable, by decide, ?_, ?_⟩ <;> first | (rw [swap_contents.1]; decide) | (rw [swap_contents.2]; decide)

/-- A second range `swap` with the same ranges undoes the first. -/
theorem C34_twice {s t s' t' s'' t'' : St α} (h : Reachable2 s t) (first last dest : Nat)
    (h1 : swapRange first last dest s t = .ok () s' t') (h2 : swapRange first last dest s' t' = .ok () s'' t'') :
    contents s'' = contents s ∧ contents t'' = contents t := by
  have hw := reachable2_wf h
  have e1 := swap_eff weak_ne hw.1 hw.2 first last dest
  have c1 := C34_swap h first last dest
  split at c1 <;> rename_i hc
  · unfold exchangeCells at e1
    simp only [if_pos hc] at e1
    obtain ⟨r, x, y, e, h3⟩ := e1
    rw [e] at h1; cases h1
    have l1 : (contents s').length = (contents s).length := by rw [h3.left]; simp; omega
    have l2 : (contents t').length = (contents t).length := by rw [h3.right]; simp; omega
    have e2 := swap_eff weak_ne h3.wfs h3.wft first last dest
    unfold exchangeCells at e2
    rw [l1, l2] at e2
    simp only [if_pos hc] at e2
    obtain ⟨r, x, y, e, h4⟩ := e2
    rw [e] at h2; cases h2
    have q1 := three ((contents s).take first) (((contents t).drop dest).take (last - first + 1)) ((contents s).drop (last + 1))
      (n := first) (k := last - first + 1) (by simp; omega) (by simp; omega)
    have q2 := three ((contents t).take dest) (((contents s).drop first).take (last - first + 1))
      ((contents t).drop (dest + (last - first + 1))) (n := dest) (k := last - first + 1) (by simp; omega) (by simp; omega)
    have g : first + (last - first + 1) = last + 1 := by omega
    rw [g] at q1
    simp only [← List.append_assoc] at q1 q2
    constructor
    · rw [h4.left, h3.left, h3.right]
      simp only
      rw [q1.1, q1.2.2, q2.2.1, ← g]
      have := splice_self (contents s) first (last - first + 1)
      rwa [splice_eq] at this
    · rw [h4.right, h3.left, h3.right]
      simp only
      rw [q2.1, q2.2.2, q1.2.1]
      have := splice_self (contents t) dest (last - first + 1)
      rwa [splice_eq] at this
  · rw [c1] at h1; cases h1

/-- Whether a call on a pair succeeds, and so does the same call after it. -/
def twiceOk (first last dest : Nat) (s t : St Nat) : Bool :=
  match swapRange first last dest s t with
  | .ok _ s' t' => (match swapRange first last dest s' t' with | .ok .. => true | _ => false)
  | _ => false

example : Reachable2 swapS swapT ∧ twiceOk 1 4 2 swapS swapT = true := ⟨swap_reachable, by decide +kernel⟩

/-- Range `swap` destroys no object.  Partial: unless the ranges are as described by `Trapped`
(finding M3, see `C36_swap_fails`). -/
theorem C34_objects_partial {s t s' t' : St α} (h : Reachable2 s t) (first last dest : Nat)
    (hn : ¬ Trapped (contents s) (contents t) first last dest)
    (hr : swapRange first last dest s t = .ok () s' t') (z : Ty × α) (hz : z.1.managed = true) :
    s'.freed.count z = s.freed.count z ∧ t'.freed.count z = t.freed.count z := by
  obtain ⟨h1, h2⟩ := reachable2_wf h
  by_cases hb : first ≤ last ∧ last < s.cur ∧ dest + (last - first + 1) ≤ t.cur
  · obtain ⟨r, x, y, e, h3, h4⟩ := swapRange_in weak_ne h1 h2 hb.1 hb.2.1 hb.2.2
    rw [e] at hr; cases hr
    have hn' : ¬ DoubleDelete (cells s.blocks) (cells t.blocks) first dest (last - first + 1) := by
      rw [← contents_eq, ← contents_eq]; exact hn
    have a1 := h3.led hn' z hz
    have a2 := h4.led hn' z hz
    rw [h3.cells, splice_eq] at a1
    rw [h4.cells, splice_eq] at a2
    have b1 := count_split (L := contents s) first (last - first + 1) z
    have b2 := count_split (L := contents t) dest (last - first + 1) z
    simp only [valuesOf, count_fm] at b1 b2
    rw [contents_eq] at b1 b2
    simp only [List.count_append, count_fm] at a1 a2 b1 b2
    have hz0 : (List.replicate (last - first + 1) (none : Cell α)).count (some z) = 0 := by
      rw [List.count_replicate]; rfl
    constructor <;> omega
  · rw [swapRange_out hb] at hr; cases hr

/-- Objects of two managed types in both containers; `swap` of a range over two blocks of each. -/
def ownSwap : List (Call2 Nat) :=
  [.onA (.pushBack tM 1), .onA (.pushBack tM 2), .onA (.pushBack tN 3), .onA (.pushBack tN 4),
   .onB (.pushBack tN 5), .onB (.pushBack tN 6), .onB (.pushBack tM 7), .onB (.pushBack tM 8), .swapAB 1 2 1]

def ownSwapA : St Nat := ((runAll2 (ownSwap.take 8) mk0 mk0).getD (mk0, mk0)).1
def ownSwapB : St Nat := ((runAll2 (ownSwap.take 8) mk0 mk0).getD (mk0, mk0)).2

theorem ownSwap_reachable : Reachable2 ownSwapA ownSwapB :=
  ⟨.default, .default, mk0, mk0, ownSwap.take 8, rfl, rfl, by simp [ownSwap, Along2, Call2.Defined, Call.Defined, Call.at_],
    by simp [ownSwap, Along2], by decide +kernel⟩

theorem ownSwap_contents : contents ownSwapA = [some (tM, 1), some (tM, 2), some (tN, 3), some (tN, 4)] ∧
    contents ownSwapB = [some (tN, 5), some (tN, 6), some (tM, 7), some (tM, 8)] := by decide +kernel

example : Reachable2 ownSwapA ownSwapB ∧ ¬ Trapped (contents ownSwapA) (contents ownSwapB) 1 2 1 ∧
    (match swapRange 1 2 1 ownSwapA ownSwapB with | .ok .. => true | _ => false) = true := by
  refine ⟨ownSwap_reachable, ?_, by decide +kernel⟩
  rw [ownSwap_contents.1, ownSwap_contents.2]
  rintro ⟨ty, u, -, -, h, -⟩
  have h0 := h 0 (by decide)
  have h1 := h 1 (by decide)
  simp [typeAt] at h0 h1
  rw [← h0] at h1
  exact absurd h1 (by decide)

/-- Two ranges of one object each; in the second container it lies between two objects of the type
of the first. -/
def trapCalls : List (Call2 Nat) :=
  [.onA (.pushBack tM 9), .onB (.pushBack tM 1), .onB (.pushBack tN 2), .onB (.pushBack tM 3), .swapAB 0 0 1]

/-- Finding M3: the object 3 is destroyed although it is still stored, and the destructor destroys it
a second time. -/
theorem C36_swap_fails : ∃ s t t' : St Nat, Reachable2 s t ∧ runAll2 trapCalls mk0 mk0 = some (s, t) ∧
    some (tM, 3) ∈ contents t ∧ (tM, 3) ∈ t.freed ∧ (givenBy2 ([], []) trapCalls).Nodup ∧
    destroy t = .ok ((), t') ∧ t'.freed.count (tM, 3) = 2 := by
  refine ⟨((runAll2 trapCalls mk0 mk0).getD (mk0, mk0)).1, ((runAll2 trapCalls mk0 mk0).getD (mk0, mk0)).2,
    ((destroy ((runAll2 trapCalls mk0 mk0).getD (mk0, mk0)).2).state).getD mk0,
    ⟨.default, .default, mk0, mk0, trapCalls, rfl, rfl, ?_, ?_, by decide +kernel⟩, by decide +kernel, by decide +kernel,
    by decide +kernel, by decide +kernel, by decide +kernel, by decide +kernel⟩
  · simp [trapCalls, Along2, Call2.Defined, Call.Defined, Call.at_]
  · simp [trapCalls, Along2]

/-- `swap(other)`: each container has what the other had, with its events and its objects, and no
object is destroyed. -/
theorem C34_whole (s t : St α) : ∃ s' t', swapAll s t = .ok () s' t' ∧ contents s' = contents t ∧ contents t' = contents s ∧
    s'.freed ++ t'.freed = t.freed ++ s.freed ∧ liveBlocks s' = liveBlocks t ∧ liveBlocks t' = liveBlocks s :=
  ⟨t, s, rfl, rfl, rfl, rfl, rfl, rfl⟩

example : contents swapS ≠ contents swapT := by rw [swap_contents.1, swap_contents.2]; decide

end Mdds.Mtv
