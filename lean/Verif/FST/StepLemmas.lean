import Verif.FST.TreeLemmas
import Verif.FST.ShiftLeftProps
import Verif.FST.ShiftRightProps

namespace Mdds.FST
variable {V : Type} [DecidableEq V]

/-- What an accepted or rejected insertion has to satisfy. -/
structure InsSpec (lo hi : Int) (dv : V) (ls : List (Leaf V)) (s e : Int) (v : V) (r : InsRes V) :
    Prop where
  wf : WF lo hi dv r.leaves
  canon : Canon ls → Canon r.leaves
  value : ∀ k, valueAt r.leaves k = specInsert (valueAt ls) lo hi s e v k
  changed : r.changed = true ↔ r.leaves ≠ ls
  rejected : (e ≤ s ∨ e ≤ lo ∨ hi ≤ s) → r = ⟨ls, none, false⟩
  pos : s < e → lo < e → s < hi → ∃ p k k' v', r.pos = some p ∧ r.leaves[p]? = some (k, v) ∧
    r.leaves[p + 1]? = some (k', v') ∧ k ≤ max s lo ∧ min e hi ≤ k'

theorem adjustRange_none {lo hi s e : Int} (h : adjustRange lo hi s e = none) :
    e ≤ s ∨ e < lo ∨ hi ≤ s := by
  unfold adjustRange at h
  split at h
  · left; assumption
  · split at h
    · right; assumption
    · cases h

theorem adjustRange_some {lo hi s e s' e' : Int} (h : adjustRange lo hi s e = some (s', e')) :
    s < e ∧ lo ≤ e ∧ s < hi ∧ s' = max s lo ∧ e' = min e hi := by
  unfold adjustRange at h
  split at h
  · cases h
  · split at h
    · cases h
    · simp at h
      refine ⟨by omega, by omega, by omega, ?_, ?_⟩
      · rw [← h.1]; split <;> omega
      · rw [← h.2]; split <;> omega

omit [DecidableEq V] in
theorem specInsert_clip (f : Int → Option V) (lo hi s e : Int) (v : V) (k : Int) :
    specInsert f lo hi (max s lo) (min e hi) v k = specInsert f lo hi s e v k := by
  unfold specInsert
  by_cases h : lo ≤ k ∧ k < hi ∧ s ≤ k ∧ k < e
  · rw [if_pos h, if_pos (by omega)]
  · rw [if_neg h, if_neg (by omega)]

theorem insertSegment_spec {lo hi : Int} {dv : V} {ls : List (Leaf V)} (w : WF lo hi dv ls) {s e : Int}
    (hsafe : ¬ (s < lo ∧ e = lo)) (v : V) (fwd : Bool) :
    ∃ r, insertSegment ls s e v fwd = .ok r ∧ InsSpec lo hi dv ls s e v r := by
  have hlt := w.lt
  cases ha : adjustRange lo hi s e with
  | none =>
    have h := adjustRange_none ha
    refine ⟨⟨ls, none, false⟩, ?_, w, id, ?_, by simp, fun _ => rfl, by omega⟩
    · unfold insertSegment; rw [bounds_eq w]; simp only [ha]
    · intro k; simp only; unfold specInsert; rw [if_neg (by omega)]
  | some p =>
    obtain ⟨s', e'⟩ := p
    obtain ⟨h1, h2, h3, h4, h5⟩ := adjustRange_some ha
    have hse : s' < e' := by omega
    obtain ⟨P, M, R, d⟩ := w.split (s := s') (e := e') (by omega) hse (by omega)
    refine ⟨_, insertSegment_nf w ha hse d v fwd, nf_wf w hse d v, fun hc => nf_canon d hc v, ?_, ?_, ?_, ?_⟩
    · intro k; rw [nf_value w (by omega) hse (by omega) d, h4, h5, specInsert_clip]
    · simp
    · intro h; omega
    · intro _ _ _
      obtain ⟨k, k', v', q1, q2, q3, q4⟩ := nf_pos w hse d v
      exact ⟨_, k, k', v', rfl, q1, q2, by omega, by omega⟩

theorem insertSegment_ub {lo hi : Int} {dv : V} {ls : List (Leaf V)} (w : WF lo hi dv ls) {s : Int}
    (h : s < lo) (v : V) (fwd : Bool) : insertSegment ls s lo v fwd = .ub := by
  have hlt := w.lt
  obtain ⟨u, t, rfl⟩ := w.exists_cons
  have ha : adjustRange lo hi s lo = some (lo, lo) := by
    unfold adjustRange
    rw [if_neg (by omega), if_neg (by omega), if_pos h, if_neg (by omega)]
  have h1 : insPos ((lo, u) :: t) lo 0 = some 0 := by simp [insPos, List.findIdx?_cons]
  have h2 : insPosRev ((lo, u) :: t) lo (((lo, u) :: t).length - 1) = none := by
    have := insPosRev_eq [] ((lo, u) :: t) lo (by simp) (fun n hn => w.lo_le n hn)
      (((lo, u) :: t).length - 1) (by simp) (by simp)
    simpa using this
  have h3 : insertToPos ((lo, u) :: t) 0 lo lo v = .ub := by
    unfold insertToPos
    rw [h1]
    simp [insStart, insEnd]
  unfold insertSegment
  rw [bounds_eq w]
  simp only [ha]
  cases fwd
  · simp only [h2]; simpa using h3
  · simp only [h1]; simpa using h3

/-- Inserting with a hint is inserting from the front. -/
theorem insertHint_eq {lo hi : Int} {dv : V} {ls : List (Leaf V)} (w : WF lo hi dv ls) (s e : Int)
    (v : V) (h : Option Nat) (hh : ∀ p, h = some p → p < ls.length) :
    insertHint ls h s e v = insertSegment ls s e v true := by
  cases ha : adjustRange lo hi s e with
  | none =>
    unfold insertHint
    cases h with
    | none => rfl
    | some p =>
      have hp := hh p rfl
      simp only [List.getElem?_eq_getElem hp]
      split
      · rfl
      · unfold insertSegment
        rw [bounds_eq w]; simp only [ha]
  | some q =>
    obtain ⟨s', e'⟩ := q
    obtain ⟨h1, h2, h3, h4, h5⟩ := adjustRange_some ha
    have hlt := w.lt
    by_cases hu : s < lo ∧ e = lo
    · unfold insertHint
      cases h with
      | none => rfl
      | some p =>
        have hp := hh p rfl
        simp only [List.getElem?_eq_getElem hp]
        have := w.lo_le ls[p] (List.getElem_mem hp)
        rw [if_pos (by omega)]
    · have hse : s' < e' := by omega
      obtain ⟨P, M, R, d⟩ := w.split (s := s') (e := e') (by omega) hse (by omega)
      rw [insertHint_nf w ha hse d v h hh, insertSegment_nf w ha hse d v true]

theorem shiftLeft_spec {lo hi : Int} {dv : V} {ls : List (Leaf V)} (w : WF lo hi dv ls) (init : V) (s e : Int) :
    ∃ r, shiftLeftLeaves ls init s e = .ok r ∧ WF lo hi dv r.1 ∧
      (lo ≤ s ∧ s < e ∧ e ≤ hi → ∀ k, valueAt r.1 k = specShiftLeft (valueAt ls) hi init s e k) ∧
      (¬ (lo ≤ s ∧ s < e ∧ e ≤ hi) → r = (ls, true)) ∧
      (Canon ls → (Canon r.1 ↔
        ¬ (lo < s ∧ s < e ∧ e = hi ∧ valueAt ls (s - 1) = some init ∧ valueAt ls (hi - 1) ≠ some init))) := by
  by_cases h : lo ≤ s ∧ s < e ∧ e ≤ hi
  · obtain ⟨h1, h2, h3⟩ := h
    obtain ⟨P, X, Y, d⟩ := w.shSplit (s := s) (e := e) h1 (by omega) (by omega)
    have hnf := shiftLeft_nf w h1 h2 h3 d init
    cases hr : shiftLeftLeaves ls init s e with
    | ub => rw [hr] at hnf; cases hnf
    | err x => rw [hr] at hnf; cases hnf
    | ok r =>
      rw [hr] at hnf
      have e1 : r.1 = slN (slA P X Y s e) init (hi - (e - s)) (hi, dv) := by
        simpa [Outcome.map] using hnf
      refine ⟨r, rfl, ?_, ?_, ?_, ?_⟩
      · rw [e1]; exact shiftLeft_wf w h2 h3 d init
      · intro _ k; rw [e1]; exact shiftLeft_value w h2 h3 d init k
      · intro hn; exact absurd ⟨h1, h2, h3⟩ hn
      · intro hc; rw [e1, shiftLeft_canon_iff w h1 h2 h3 d hc init]
        constructor
        · rintro a ⟨b1, b2, b3⟩; exact a ⟨b1, b3⟩
        · rintro a ⟨b1, b3⟩; exact a ⟨b1, h2, b3⟩
  · refine ⟨(ls, true), ?_, w, fun h' => absurd h' h, fun _ => rfl, ?_⟩
    · unfold shiftLeftLeaves
      rw [bounds_eq w]
      by_cases c1 : s ≥ e
      · rw [if_pos c1]
      · rw [if_neg c1]
        simp only
        by_cases c2 : s < lo ∨ e < lo
        · rw [if_pos c2]
        · rw [if_neg c2, if_pos (by omega)]
    · intro hc
      simp only [hc, true_iff]
      rintro ⟨h1, h2, h3, -⟩
      exact h ⟨by omega, h2, by omega⟩

/-- The tree stays valid only if the keys are unchanged. -/
theorem shiftLeft_valid {ls : List (Leaf V)} {init : V} {s e : Int} {r : List (Leaf V) × Bool}
    (h : shiftLeftLeaves ls init s e = .ok r) (hv : r.2 = true) :
    r.1.map (·.1) = ls.map (·.1) := by
  have happ : ∀ (l : List (Leaf V)) (k : Int) (q : List (Leaf V) × Bool), appendNewSegment l init k = .ok q →
      q.2 = false → q.1.map (·.1) = l.map (·.1) := by
    intro l k q hq hq2
    unfold appendNewSegment at hq
    simp only at hq
    by_cases hl : l.length < 2
    · rw [if_pos hl] at hq; cases hq
    · rw [if_neg hl] at hq
      cases hp : l[l.length - 2]? with
      | none => rw [hp] at hq; cases hq
      | some p =>
        cases hr : l[l.length - 1]? with
        | none => rw [hp, hr] at hq; cases hq
        | some r =>
          rw [hp, hr] at hq
          simp only at hq
          split at hq
          · cases hq
            simp only
            have hd : l = l.take (l.length - 2) ++ [p, r] := by
              have hlt : l.length - 2 < l.length := by omega
              have h1 : l.drop (l.length - 2) = p :: l.drop (l.length - 2 + 1) := by
                obtain ⟨hh, hp'⟩ := List.getElem?_eq_some_iff.1 hp
                rw [List.drop_eq_getElem_cons hh, hp']
              have h2 : l.drop (l.length - 2 + 1) = [r] := by
                have e1 : l.length - 2 + 1 = l.length - 1 := by omega
                obtain ⟨hh, hr'⟩ := List.getElem?_eq_some_iff.1 hr
                rw [e1, List.drop_eq_getElem_cons hh, hr', List.drop_eq_nil_of_le (by omega)]
              conv => lhs; rw [← List.take_append_drop (l.length - 2) l, h1, h2]
            conv => rhs; rw [hd]
            simp
          · split at hq
            · cases hq; rfl
            · cases hq; cases hq2
  unfold shiftLeftLeaves at h
  split at h
  · cases h; rfl
  · split at h
    · cases h
    · cases h
    · split at h
      · cases h; rfl
      · split at h
        · cases h; rfl
        · simp only at h
          split at h
          · cases h; rfl
          · split at h
            · rename_i i _ _
              revert h
              generalize hq : appendNewSegment ls init _ = y
              intro h
              cases y with
              | ok q =>
                simp only [Outcome.map] at h
                cases h
                exact happ _ _ q hq (by simpa using hv)
              | err x => cases h
              | ub => cases h
            · split at h
              · cases h
              · split at h
                · revert h
                  generalize appendNewSegment _ init _ = y
                  intro h
                  cases y with
                  | ok q => cases h; cases hv
                  | err x => cases h
                  | ub => cases h
                · revert h
                  generalize appendNewSegment _ init _ = y
                  intro h
                  cases y with
                  | ok q => cases h; cases hv
                  | err x => cases h
                  | ub => cases h

theorem shiftRight_spec {lo hi : Int} {dv : V} {ls : List (Leaf V)} (w : WF lo hi dv ls) (init : V)
    (p n : Int) (skip : Bool) :
    ∃ r, shiftRightLeaves ls init p n skip = .ok r ∧ WF lo hi dv r.1 ∧ (Canon ls → Canon r.1) ∧
      (0 < n ∧ lo ≤ p ∧ p < hi → r.2 = false ∧ ∀ k, valueAt r.1 k = specShiftRight (valueAt ls) hi
        (if skip then valueAt ls p else if p = lo then some init else valueAt ls (p - 1)) p n k) ∧
      (¬ (0 < n ∧ lo ≤ p ∧ p < hi) → r = (ls, true)) := by
  by_cases h : 0 < n ∧ lo ≤ p ∧ p < hi
  · obtain ⟨h1, h2, h3⟩ := h
    obtain ⟨A, B, c, e⟩ := shiftRight_nf w h1 h2 h3 init skip
    obtain ⟨q1, q2, q3⟩ := c.result w h1 h3
    exact ⟨_, e, q1, q2, fun _ => ⟨rfl, q3⟩, fun hn => absurd ⟨h1, h2, h3⟩ hn⟩
  · refine ⟨(ls, true), ?_, w, id, fun h' => absurd h' h, fun _ => rfl⟩
    unfold shiftRightLeaves
    rw [bounds_eq w]
    by_cases c1 : n ≤ 0
    · rw [if_pos c1]
    · rw [if_neg c1]; simp only; rw [if_pos (by omega)]

/-- Invariant of every reachable state. -/
structure Inv (lo hi : Int) (dv init : V) (st : State V) : Prop where
  wf : WF lo hi dv st.leaves
  init : st.init = init
  tree : st.valid = true → st.root = buildTreeOf (st.leaves.map (·.1))

omit [DecidableEq V] in
theorem inv_mk {lo hi : Int} (h : lo < hi) (dv init : V) : Inv lo hi dv init (mk dv lo hi init) :=
  ⟨⟨h, by simp [mk, h], by simp [mk], by simp [mk]⟩, rfl, by simp [mk]⟩

theorem applyIns_inv {lo hi : Int} {dv init : V} {st st' : State V} (i : Inv lo hi dv init st)
    {s e : Int} {v : V} {r : InsRes V} (hr : InsSpec lo hi dv st.leaves s e v r)
    (h : applyIns st (.ok r) = .ok st') : Inv lo hi dv init st' := by
  simp [applyIns, Outcome.map] at h
  subst h
  refine ⟨hr.wf, i.init, ?_⟩
  intro hv
  simp only [Bool.and_eq_true, Bool.not_eq_true'] at hv ⊢
  have hc : ¬ r.changed = true := by rw [hv.1]; simp
  · have : r.leaves = st.leaves := by
      by_contra hne; exact hc (hr.changed.2 hne)
    rw [this]; exact i.tree hv.2

theorem step_inv {lo hi : Int} {dv init : V} {st st' : State V} (i : Inv lo hi dv init st) {o : Op V}
    (h : step st o = .ok st') : Inv lo hi dv init st' := by
  cases o with
  | insertFront s e v =>
    simp only [step] at h
    by_cases hs : s < lo ∧ e = lo
    · rw [hs.2, insertSegment_ub i.wf hs.1] at h; cases h
    · obtain ⟨r, h1, h2⟩ := insertSegment_spec i.wf hs v true
      rw [h1] at h; exact applyIns_inv i h2 h
  | insertBack s e v =>
    simp only [step] at h
    by_cases hs : s < lo ∧ e = lo
    · rw [hs.2, insertSegment_ub i.wf hs.1] at h; cases h
    · obtain ⟨r, h1, h2⟩ := insertSegment_spec i.wf hs v false
      rw [h1] at h; exact applyIns_inv i h2 h
  | insertAt p s e v =>
    simp only [step] at h
    have hp : ∀ q, p = some q → q < st.leaves.length := by
      rintro q rfl
      by_contra hn
      simp only [insertHint, List.getElem?_eq_none (Nat.le_of_not_lt hn)] at h
      cases h
    rw [insertHint_eq i.wf s e v p hp] at h
    by_cases hs : s < lo ∧ e = lo
    · rw [hs.2, insertSegment_ub i.wf hs.1] at h; cases h
    · obtain ⟨r, h1, h2⟩ := insertSegment_spec i.wf hs v true
      rw [h1] at h; exact applyIns_inv i h2 h
  | shiftLeft s e =>
    simp only [step] at h
    obtain ⟨r, h1, h2, -⟩ := shiftLeft_spec i.wf st.init s e
    rw [h1] at h
    simp [applyShift, Outcome.map] at h
    subst h
    refine ⟨h2, i.init, ?_⟩
    intro hv
    simp at hv ⊢
    rw [shiftLeft_valid h1 hv.2]; exact i.tree hv.1
  | shiftRight p n k =>
    simp only [step] at h
    obtain ⟨r, h1, h2, -, h3, h4⟩ := shiftRight_spec i.wf st.init p n k
    rw [h1] at h
    simp [applyShift, Outcome.map] at h
    subst h
    refine ⟨h2, i.init, ?_⟩
    intro hv
    simp at hv ⊢
    by_cases hc : 0 < n ∧ lo ≤ p ∧ p < hi
    · rw [(h3 hc).1] at hv; exact absurd hv.2 (by simp)
    · rw [h4 hc]; exact i.tree hv.1
  | buildTree =>
    simp [step] at h; subst h
    exact ⟨i.wf, i.init, fun _ => rfl⟩
  | recopy =>
    simp [step] at h; subst h
    exact ⟨i.wf, i.init, by simp [copy]⟩
  | clear =>
    simp only [step, clear] at h
    obtain ⟨v, t, e⟩ := i.wf.exists_cons
    have hl := i.wf.last
    simp only [hl] at h
    rw [e] at h
    simp at h; subst h
    exact ⟨⟨i.wf.lt, by simp [i.wf.lt], by simp, by simp⟩, i.init, by simp⟩

theorem run_inv {lo hi : Int} {dv init : V} {st st' : State V} (i : Inv lo hi dv init st) {os : List (Op V)}
    (h : run st os = .ok st') : Inv lo hi dv init st' := by
  induction os generalizing st with
  | nil => simp [run] at h; subst h; exact i
  | cons o os ih =>
    unfold run at h
    cases hs : step st o with
    | ok s1 => rw [hs] at h; exact ih (step_inv i hs) h
    | err x => rw [hs] at h; cases h
    | ub => rw [hs] at h; cases h

theorem leavesEq_iff (a b : List (Leaf V)) : leavesEq a b = true ↔ a = b := by
  induction a generalizing b with
  | nil => cases b <;> simp [leavesEq]
  | cons x a ih =>
    cases b with
    | nil => simp [leavesEq]
    | cons y b =>
      unfold leavesEq
      obtain ⟨xk, xv⟩ := x; obtain ⟨yk, yv⟩ := y
      by_cases h1 : xk = yk
      · by_cases h2 : xv = yv
        · simp [h1, h2, ih]
        · simp [h1, h2]
      · simp [h1]

omit [DecidableEq V] in
theorem iterate_fwd (ls : List (Leaf V)) (n : Nat) (hn : n < ls.length) (fuel : Nat)
    (hf : ls.length - n ≤ fuel) : iterate ls (itInc ls) (itEnd ls) fuel ⟨n, false⟩ = some (ls.drop n) := by
  induction fuel generalizing n with
  | zero => omega
  | succ f ih =>
    unfold iterate
    rw [if_neg (by simp [itEnd]), List.getElem?_eq_getElem hn]
    simp only
    rw [List.drop_eq_getElem_cons hn]
    by_cases hl : n = ls.length - 1
    · have h1 : itInc ls ⟨n, false⟩ = itEnd ls := by simp [itInc, itEnd, hl]
      rw [h1]
      have h2 : iterate ls (itInc ls) (itEnd ls) f (itEnd ls) = some [] := by cases f <;> simp [iterate]
      rw [h2, List.drop_eq_nil_of_le (by omega)]; rfl
    · have h1 : itInc ls ⟨n, false⟩ = ⟨n + 1, false⟩ := by simp [itInc, hl]
      rw [h1, ih (n + 1) (by omega) (by omega)]; rfl

omit [DecidableEq V] in
theorem iterate_rev (ls : List (Leaf V)) (n : Nat) (hn : n < ls.length) (fuel : Nat)
    (hf : n + 1 ≤ fuel) : iterate ls ritInc ritEnd fuel ⟨n, false⟩ = some (ls.take (n + 1)).reverse := by
  induction fuel generalizing n with
  | zero => omega
  | succ f ih =>
    unfold iterate
    rw [if_neg (by simp [ritEnd]), List.getElem?_eq_getElem hn]
    simp only
    rw [List.take_succ_eq_append_getElem hn, List.reverse_append]
    cases n with
    | zero =>
      have h1 : ritInc ⟨0, false⟩ = ritEnd := by simp [ritInc, ritEnd]
      rw [h1]
      have h2 : iterate ls ritInc ritEnd f ritEnd = some [] := by cases f <;> simp [iterate]
      rw [h2]; rfl
    | succ n =>
      have h1 : ritInc ⟨n + 1, false⟩ = ⟨n, false⟩ := by simp [ritInc]
      rw [h1, ih n (by omega) (by omega)]; simp

/-- The expected list of segments: consecutive pairs of leaves. -/
def segments : List (Leaf V) → List (Int × Int × V)
  | a :: b :: t => (a.1, b.1, a.2) :: segments (b :: t)
  | _ => []

omit [DecidableEq V] in
theorem segIterate_eq (ls : List (Leaf V)) (n : Nat) (hn : n < ls.length) (fuel : Nat)
    (hf : ls.length - n ≤ fuel) : segIterate ls fuel ⟨n, nextIdx ls n⟩ = some (segments (ls.drop n)) := by
  induction fuel generalizing n with
  | zero => omega
  | succ f ih =>
    unfold segIterate
    rw [List.drop_eq_getElem_cons hn]
    by_cases hl : n + 1 < ls.length
    · have h1 : nextIdx ls n = some (n + 1) := by simp [nextIdx, hl]
      rw [h1, if_neg (by simp [segEnd])]
      have h2 : segDeref ls ⟨n, some (n + 1)⟩ = some (ls[n].1, ls[n + 1].1, ls[n].2) := by
        simp [segDeref, List.getElem?_eq_getElem hn, List.getElem?_eq_getElem hl]
      have h3 : segInc ls ⟨n, some (n + 1)⟩ = some ⟨n + 1, nextIdx ls (n + 1)⟩ := by
        simp [segInc, h1]
      rw [h2, h3]
      simp only
      rw [ih (n + 1) hl (by omega), List.drop_eq_getElem_cons hl]
      simp [segments]
    · have h1 : nextIdx ls n = none := by simp [nextIdx, hl]
      have h2 : n = ls.length - 1 := by omega
      rw [h1, if_pos (by simp [segEnd, h2]), List.drop_eq_nil_of_le (by omega)]
      simp [segments]

end Mdds.FST
