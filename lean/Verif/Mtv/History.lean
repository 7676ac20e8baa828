import Verif.Mtv.Spec
import Verif.Mtv.ApiLemmas

/-!
# multi_type_vector: histories

One statement for all modifying calls, and its consequences for arbitrary histories.
-/

namespace Mdds.Mtv

set_option linter.unusedSectionVars false

variable {α : Type} [DecidableEq α]

theorem contents_eq (s : St α) : contents s = cells s.blocks := by
  unfold contents cells
  congr 1

theorem typeAt_eq (L : List (Cell α)) (i : Nat) : typeAt L i = tyAt L i := rfl

theorem Eff.refl {S : Option Ty → Prop} {lp ep : Prop} {s : St α} (h : WF S s) :
    Eff S lp ep s s (Mtv.cells s.blocks) [] [] :=
  ⟨h.tile, h.cur, h.sep, rfl, fun _ z _ => by simp, by omega, fun _ i => by omega⟩

theorem Eff.wf {S : Option Ty → Prop} {lp ep : Prop} {s s' : St α} {L ins outs} (h : Eff S lp ep s s' L ins outs) :
    WF S s' := ⟨h.tile, h.cur, h.sep⟩

theorem splice_set (L : List (Cell α)) (pos : Nat) (x : Cell α) (hp : pos < L.length) :
    splice L pos 1 [x] = L.set pos x := by
  rw [List.set_eq_take_append_cons_drop, if_pos hp]; simp [splice]

/-! ### release() -/

theorem releaseBlocks_cf (n : Nat) : ∀ (i : Nat) (bs : List (Blk α)) (c fr ev nx),
    releaseBlocks i n ⟨bs, c, fr, ev, nx⟩ =
      if n = 0 ∨ i + n ≤ bs.length then
        .ok ((), ⟨bs.take i ++ (((bs.drop i).take n).map clr ++ bs.drop (i + n)), c,
          fr, ev ++ (ids ((bs.drop i).take n)).map Ev.rel, nx⟩)
      else .ub := by
  induction n with
  | zero => intro i bs c fr ev nx; simp [releaseBlocks]
  | succ n ih =>
    intro i bs c fr ev nx
    by_cases h : i < bs.length
    · have e : bs = bs.take i ++ bs[i] :: bs.drop (i + 1) := by simp
      have hl : (bs.take i).length = i := by simp; omega
      generalize hA : bs.take i = A at e hl
      generalize hB : bs.drop (i + 1) = B at e
      generalize bs[i] = b at e
      subst hl
      subst e
      clear h hA hB
      have h1 : n = 0 ∨ A.length + 1 + n ≤ A.length + (B.length + 1) ↔ n ≤ B.length := by omega
      have h2 : A.length + (n + 1) ≤ A.length + (B.length + 1) ↔ n ≤ B.length := by omega
      have h3 : A.length + 1 + n = A.length + (n + 1) := by omega
      have h4 : (n = 0 ∨ n ≤ B.length) ↔ n ≤ B.length := by omega
      rcases b with ⟨p, m, _ | d⟩ <;>
        simp [releaseBlocks, releaseBlock, mev, ih, h1, h2, h3, h4, clr]
    · have hb : bs[i]? = none := List.getElem?_eq_none (by omega)
      have : ¬ i + (n + 1) ≤ bs.length := by omega
      simp [releaseBlocks, releaseBlock, mev, hb, this]

theorem count_fm (L : List (Cell α)) (z : Ty × α) : (L.filterMap id).count z = L.count (some z) := by
  induction L with
  | nil => rfl
  | cons c l ih =>
    rcases c with _ | y
    · rw [List.filterMap_cons_none rfl, ih]; simp
    · rw [List.filterMap_cons_some (f := id) (a := some y) (b := y) rfl, List.count_cons, List.count_cons, ih]; simp

theorem releaseAll_eff {S : Option Ty → Prop} {s : St α} :
    Runs (releaseAll s) (fun _ s' => Eff S True True s s' [] [] ((cells s.blocks).filterMap id)) := by
  rcases s with ⟨bs, c, fr, ev, nx⟩
  simp only [releaseAll, bind_apply, nBlocks_ap, obind_ok, releaseBlocks_cf]
  simp [mev]
  refine ⟨by simp, by simp, by simp, by simp, ?_, ?_, ?_⟩
  · intro _ z _; have := count_fm (cells bs) z; simp [-fm_cells] at this ⊢; exact this
  · simp; omega
  · intro _ z; simp; omega

/-! ### One call -/

/-- The call is an `insert` of values. -/
def Call.isInsert : Call α → Bool
  | .insert .. => true
  | _ => false

/-- Every call, on any well-formed container: it runs and does what the specification says, or
throws and changes nothing. -/
theorem call_eff {S : Option Ty → Prop} (hS : ∀ t, S t → t ≠ none) {s : St α} (h : WF S s) (c : Call α)
    (hd : c.Defined (contents s)) (hg : (∀ t, S (some t)) ∨ c.NoGap (contents s)) :
    match c.spec (contents s) with
    | some L' => Runs (c.run s) fun r s' =>
        Eff S (c.NoLeak (contents s)) ((c.isInsert = true → ∀ t, ¬ S t) ∧ c.NoMiss (contents s)) s s' L' c.given
            (c.handedOut (contents s)) ∧ c.RetOk (contents s) r s'
    | none => c.run s = .err .outOfRange s := by
  rw [contents_eq] at *
  have hlen := cells_length h
  obtain ⟨hd1, hd2⟩ := hd
  have hhint : c.at_ = none ∨ 0 < s.cur := by
    by_cases hc : c.at_ = none
    · exact Or.inl hc
    · right; rw [← hlen]; exact List.length_pos_iff.2 (hd1 hc)
  have fin : ∀ {β : Type} {m : M α β} {f : β → Ret α} {P : β → St α → Prop} {Q : Ret α → St α → Prop},
      Runs (m s) P → (∀ r s', P r s' → Q (f r) s') → Runs ((m s).bind fun p => M.pure (f p.1) p.2) Q := by
    intro β m f P Q hm hq
    refine Runs.bind hm (fun r s' hp => ⟨_, _, rfl, hq r s' hp⟩)
  have err : ∀ {β : Type} {m : M α β} {f : β → Ret α}, m s = .err .outOfRange s →
      ((m s).bind fun p => M.pure (f p.1) p.2) = .err .outOfRange s := by
    intro β m f hm; rw [hm]; rfl
  cases c with
  | set at_ pos ty x =>
    by_cases hp : pos < (cells s.blocks).length
    · simp only [Call.spec, if_pos hp, Call.run, bind_apply]
      refine fin (set_in hS h at_ (by omega) ty x) (fun r s' hh => ⟨?_, hh.2⟩)
      exact (hh.1.cast (splice_set _ _ _ hp)).mono (fun _ => trivial) (fun _ => trivial)
    · simp only [Call.spec, if_neg hp, Call.run, bind_apply]
      exact err (set_out h at_ (by omega) hhint ty x)
  | setRange at_ pos ty vs =>
    simp only [Call.spec, Call.run, bind_apply]
    by_cases h0 : vs = []
    · subst h0
      rw [if_pos rfl]
      refine fin (P := fun r s' => r = s.blocks.length ∧ s' = s) ⟨_, _, setRange_nil at_ pos ty s, rfl, rfl⟩ ?_
      rintro r s' ⟨rfl, rfl⟩
      exact ⟨Eff.refl h, by simp [Call.RetOk]⟩
    · rw [if_neg h0]
      by_cases hp : pos + vs.length ≤ (cells s.blocks).length
      · rw [if_pos hp]
        refine fin (setRange_in hS h at_ ty vs h0 (by omega) ?_) (fun r s' hh => ⟨?_, by simp only [Call.RetOk, if_neg h0]; exact hh.2⟩)
        · rcases hg with hg | hg
          · exact Or.inl (hg ty)
          · exact Or.inr hg
        · exact (hh.1.cast (by simp [splice, cellsOf])).mono id (fun hh => hh.2)
      · rw [if_neg hp]
        exact err (setRange_out at_ ty vs h0 (by omega))
  | insert at_ pos ty vs =>
    by_cases hp : pos < (cells s.blocks).length
    · simp only [Call.spec, if_pos hp, Call.run, bind_apply]
      by_cases h0 : vs = []
      · subst h0
        refine fin (P := fun r s' => r = s.blocks.length ∧ s' = s) ⟨_, _, insert_nil h at_ (by omega) ty, rfl, rfl⟩ ?_
        rintro r s' ⟨rfl, rfl⟩
        exact ⟨(Eff.refl h).cast (by simp [cellsOf]), by simp [Call.RetOk]⟩
      · refine fin (insert_in hS h at_ (by omega) ty vs h0) (fun r s' hh => ⟨?_, by simp only [Call.RetOk, if_neg h0]; exact hh.2⟩)
        refine (hh.1.cast (by simp [splice, cellsOf])).mono (fun _ => trivial) ?_
        rintro ⟨h1, h2⟩
        refine ⟨h1 rfl, ?_⟩
        rcases h2 with h2 | h2
        · exact absurd h2 h0
        · exact h2
    · simp only [Call.spec, if_neg hp, Call.run, bind_apply]
      exact err (insert_out h at_ (by omega) hhint ty vs)
  | insertEmpty at_ pos n =>
    simp only [Call.spec, Call.run, bind_apply]
    by_cases h0 : n = 0
    · subst h0
      rw [if_pos rfl]
      refine fin (P := fun r s' => r = s.blocks.length ∧ s' = s) ⟨_, _, insertEmpty_nil at_ pos s, rfl, rfl⟩ ?_
      rintro r s' ⟨rfl, rfl⟩
      exact ⟨Eff.refl h, by simp [Call.RetOk]⟩
    · rw [if_neg h0]
      by_cases hp : pos < (cells s.blocks).length
      · rw [if_pos hp]
        refine fin (insertEmpty_in hS h at_ (by omega) n (by omega)) (fun r s' hh => ⟨?_, by simp only [Call.RetOk, if_neg h0]; exact hh.2⟩)
        exact (hh.1.cast (by simp [splice])).mono (fun _ => trivial) (fun _ => trivial)
      · rw [if_neg hp]
        exact err (insertEmpty_out h at_ (by omega) hhint n (by omega))
  | setEmpty at_ p q =>
    simp only [Call.spec, Call.run, bind_apply]
    by_cases hp : p ≤ q ∧ q < (cells s.blocks).length
    · rw [if_pos hp]
      refine fin (setEmpty_in hS h at_ hp.1 (by omega)) (fun r s' hh => ⟨?_, hh.2⟩)
      refine (hh.1.cast ?_).mono (fun _ => trivial) (fun _ => trivial)
      have : p + (q - p + 1) = q + 1 := by omega
      simp only [splice, this, List.append_assoc]
    · rw [if_neg hp]
      exact err (setEmpty_out h at_ (by omega) hhint)
  | releaseRange at_ p q =>
    simp only [Call.spec, Call.run, bind_apply]
    by_cases hp : p ≤ q ∧ q < (cells s.blocks).length
    · rw [if_pos hp]
      refine fin (releaseRange_in hS h at_ hp.1 (by omega)) (fun r s' hh => ⟨?_, hh.2⟩)
      refine (hh.1.cast ?_).mono (fun _ => trivial) (fun _ => trivial)
      have : p + (q - p + 1) = q + 1 := by omega
      simp only [splice, this, List.append_assoc]
    · rw [if_neg hp]
      exact err (releaseRange_out h at_ (by omega) hhint)
  | erase p q =>
    simp only [Call.spec, Call.run, bind_apply]
    by_cases hp : p ≤ q ∧ q < (cells s.blocks).length
    · rw [if_pos hp]
      refine fin (f := fun _ => .unit) (erase_in h hp.1 (by omega)) (fun r s' hh => ⟨?_, trivial⟩)
      refine (hh.cast ?_).mono (fun _ => trivial) (fun _ => trivial)
      have : p + (q - p + 1) = q + 1 := by omega
      simp only [splice, this, List.nil_append]
    · rw [if_neg hp]
      exact err (f := fun _ => .unit) (erase_out h (by omega))
  | pushBack ty x =>
    simp only [Call.spec, Call.run, bind_apply]
    refine fin (pushBack_eff S ty x s.blocks s.cur s.freed s.evs s.next s rfl h) (fun r s' hh => ⟨?_, ?_⟩)
    · exact hh.1.mono (fun _ => trivial) (fun _ => trivial)
    · have := hh.2; rw [← h.cur, ← hlen] at this; exact this
  | pushBackEmpty =>
    simp only [Call.spec, Call.run, bind_apply]
    refine fin (pushBackEmpty_eff S hS s.blocks s.cur s.freed s.evs s.next s rfl h) (fun r s' hh => ⟨?_, ?_⟩)
    · exact hh.1.mono (fun _ => trivial) (fun _ => trivial)
    · have := hh.2; rw [← h.cur, ← hlen] at this; exact this
  | resize n =>
    simp only [Call.spec, Call.run, bind_apply]
    refine fin (f := fun _ => .unit) (resize_eff hS h n hd2) (fun r s' hh => ⟨?_, trivial⟩)
    rw [hlen]
    exact hh.mono (fun _ => trivial) (fun _ => trivial)
  | clear =>
    simp only [Call.spec, Call.run, bind_apply]
    refine fin (f := fun _ => .unit) (clear_eff S s.blocks s.cur s.freed s.evs s.next s rfl h) (fun r s' hh => ⟨?_, trivial⟩)
    exact hh.mono (fun _ => trivial) (fun _ => trivial)
  | release at_ pos ty =>
    by_cases hp : pos < (cells s.blocks).length
    · simp only [Call.spec, if_pos hp, Call.run, bind_apply]
      refine Runs.bind (release_in hS h at_ (by omega) ty hd2) (fun r s' hh => ⟨_, _, rfl, ?_, hh.2.1, hh.2.2⟩)
      exact (hh.1.cast (splice_set _ _ _ hp)).mono (fun _ => trivial) (fun _ => trivial)
    · simp only [Call.spec, if_neg hp, Call.run, bind_apply]
      rw [release_out h at_ (by omega) hhint ty]; rfl
  | releaseAll =>
    simp only [Call.spec, Call.run, bind_apply]
    refine fin (f := fun _ => .unit) (releaseAll_eff (S := S)) (fun r s' hh => ⟨?_, trivial⟩)
    exact hh.mono (fun _ => trivial) (fun _ => trivial)

/-! ### Histories -/

theorem run_history {S : Option Ty → Prop} (hS : ∀ t, S t → t ≠ none) (cs : List (Call α)) :
    ∀ {s : St α}, WF S s → Along Call.Defined (contents s) cs →
      ((∀ t, S (some t)) ∨ Along Call.NoGap (contents s) cs) →
      ∃ s', runAll cs s = some s' ∧
        Eff S (Along Call.NoLeak (contents s) cs) ((∀ t, ¬ S t) ∧ Along Call.NoMiss (contents s) cs) s s'
          (specRun (contents s) cs) (givenBy (contents s) cs) (handedBy (contents s) cs) := by
  induction cs with
  | nil =>
    intro s h _ _
    exact ⟨s, rfl, by simpa [specRun, givenBy, handedBy, contents_eq] using Eff.refl h⟩
  | cons c cs ih =>
    intro s h hd hg
    have hg1 : (∀ t, S (some t)) ∨ c.NoGap (contents s) := hg.imp id (fun hh => hh.1)
    have hc := call_eff hS h c hd.1 hg1
    cases hs : c.spec (contents s) with
    | none =>
      rw [hs] at hc
      simp only at hc
      have ha : c.after (contents s) = contents s := by simp [Call.after, hs]
      obtain ⟨s', h1, h2⟩ := ih h (by have := hd.2; rwa [ha] at this) (hg.imp id (fun hh => by have := hh.2; rwa [ha] at this))
      refine ⟨s', by simp [runAll, hc, h1], ?_⟩
      have e1 : givenBy (contents s) (c :: cs) = givenBy (contents s) cs := by simp [givenBy, hs, ha]
      have e2 : handedBy (contents s) (c :: cs) = handedBy (contents s) cs := by simp [handedBy, hs, ha]
      have e3 : specRun (contents s) (c :: cs) = specRun (contents s) cs := by simp [specRun, ha]
      rw [e1, e2, e3]
      refine h2.mono (fun hh => by have := hh.2; rwa [ha] at this) (fun hh => ⟨hh.1, by have := hh.2.2; rwa [ha] at this⟩)
    | some L' =>
      rw [hs] at hc
      simp only at hc
      obtain ⟨r, s1, hr, hE, -⟩ := hc
      have hL : contents s1 = L' := by rw [contents_eq]; exact hE.cells
      have ha : c.after (contents s) = contents s1 := by simp [Call.after, hs, hL]
      obtain ⟨s', h1, h2⟩ := ih hE.wf (by have := hd.2; rwa [ha] at this) (hg.imp id (fun hh => by have := hh.2; rwa [ha] at this))
      refine ⟨s', by simp [runAll, hr, h1], ?_⟩
      have e1 : givenBy (contents s) (c :: cs) = c.given ++ givenBy (contents s1) cs := by simp [givenBy, hs, ha]
      have e2 : handedBy (contents s) (c :: cs) = c.handedOut (contents s) ++ handedBy (contents s1) cs := by
        simp [handedBy, hs, ha]
      have e3 : specRun (contents s) (c :: cs) = specRun (contents s1) cs := by simp [specRun, ha]
      rw [e1, e2, e3]
      refine ⟨h2.tile, h2.cur, h2.sep, h2.cells, ?_, ?_, ?_⟩
      · rintro hh z hz
        have h3 := hE.led hh.1 z hz
        have h4 := h2.led (by have := hh.2; rwa [ha] at this) z hz
        simp only [List.count_append]
        omega
      · have h3 := hE.evn
        have h4 := h2.evn
        omega
      · rintro hh i
        have h3 := hE.ev ⟨fun _ => hh.1, hh.2.1⟩ i
        have h4 := h2.ev ⟨hh.1, by have := hh.2.2; rwa [ha] at this⟩ i
        omega

end Mdds.Mtv
