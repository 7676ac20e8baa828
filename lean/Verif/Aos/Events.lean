import Verif.Aos.Exact
import Verif.Mtv.PairHistory

/-!
# Events of the array-of-structures implementation

Its `insert` reports the block it creates, so one of the two conditions under which the
structure-of-arrays implementation reports correctly falls away.
-/

namespace Mdds.Aos
open Mdds Mdds.Mtv

set_option linter.unusedSimpArgs false
set_option linter.unusedVariables false

variable {α : Type}

/-- `insertCellsImpl`, written with the helper functions of the other model (which are equal). -/
def insertTrue (row i : Nat) (ty : Ty) (vs : List α) : M α Nat := do
  let b ← getB i
  let n ← nBlocks
  if vs.length = 0 then M.pure n
  else
    match b.data with
    | none =>
      if row = b.pos then do
        let pv ← Mtv.isPrevOfType i (some ty)
        if pv then Mtv.insertIntoPrev i ty vs
        else do
          insB i [⟨b.pos, vs.length, none⟩]
          Mtv.newBlockAt i ty vs
          Mtv.growCur vs.length
          shiftUp (i + 1) vs.length
          M.pure i
      else do
        Mtv.insertCellsToMiddle row i ty vs
        Mtv.growCur vs.length
        M.pure (i + 1)
    | some d =>
      if ty = d.ty then do
        insertVals i (row - b.pos) ty vs
        addSize i vs.length
        Mtv.growCur vs.length
        shiftUp (i + 1) vs.length
        M.pure i
      else if row = b.pos then do
        let pv ← Mtv.isPrevOfType i (some ty)
        if pv then Mtv.insertIntoPrev i ty vs
        else do
          insB i [⟨b.pos, vs.length, none⟩]
          let e ← newEB ty []
          setData i (some e)
          acquired e
          assignVals i ty vs
          setSize i vs.length
          Mtv.growCur vs.length
          shiftUp (i + 1) vs.length
          M.pure i
      else do
        Mtv.insertCellsToMiddle row i ty vs
        Mtv.growCur vs.length
        M.pure (i + 1)

theorem insertTrue_eq : @insertTrue α = @Aos.insertCellsImpl α := by
  unfold insertTrue Aos.insertCellsImpl
  simp only [insertIntoPrev_eq, newBlockAt_eq, growCur_eq, insertCellsToMiddle_eq, isPrevOfType_eq]
  rfl

mk_ap insertTrue

section
variable [DecidableEq α]

theorem true_insert_none_top (S : Option Ty → Prop) (hS : ∀ t, S t → t ≠ none) (pre post : List (Blk α))
    (p k : Nat) (ty : Ty) (vs : List α) (hvs : vs ≠ []) (c fr ev nx) (s : St α)
    (e : s = ⟨pre ++ ⟨p, k, none⟩ :: post, c, fr, ev, nx⟩) (h : WF S s) :
    Runs (insertTrue (total pre) pre.length ty vs s)
      (fun r s' => Eff S True True s s'
        (cells pre ++ (vs.map (fun v => some (ty, v)) ++ List.replicate k none) ++ cells post)
        (vs.map (fun v => (ty, v))) []
        ∧ Holds s' r (total pre)) := by
  subst e
  have hS' : ¬ S none := fun h => hS _ h rfl
  have hb' : 0 < vs.length := List.length_pos_iff.2 hvs
  have hb2 : ¬ vs.length = 0 := by omega
  clear hS
  prevs ty pre
  go h

theorem true_insert_none_mid (S : Option Ty → Prop) (hS : ∀ t, S t → t ≠ none) (pre post : List (Blk α))
    (p a k : Nat) (ha : 0 < a) (hk : 0 < k) (ty : Ty) (vs : List α) (hvs : vs ≠ []) (c fr ev nx) (s : St α)
    (e : s = ⟨pre ++ ⟨p, a + k, none⟩ :: post, c, fr, ev, nx⟩) (h : WF S s) :
    Runs (insertTrue (total pre + a) pre.length ty vs s)
      (fun r s' => Eff S True True s s'
        (cells pre ++ (List.replicate a none ++ vs.map (fun v => some (ty, v)) ++ List.replicate k none) ++ cells post)
        (vs.map (fun v => (ty, v))) []
        ∧ Holds s' r (total pre + a)) := by
  subst e
  have hS' : ¬ S none := fun h => hS _ h rfl
  have hb' : 0 < vs.length := List.length_pos_iff.2 hvs
  have hb2 : ¬ vs.length = 0 := by omega
  have ha2 : ¬ a = 0 := by omega
  clear hS
  go h

theorem true_insert_same (S : Option Ty → Prop) (pre post : List (Blk α))
    (p i : Nat) (ty : Ty) (va vb : List α) (vs : List α) (hvs : vs ≠ []) (c fr ev nx) (s : St α)
    (e : s = ⟨pre ++ ⟨p, va.length + vb.length, some ⟨i, ty, va ++ vb⟩⟩ :: post, c, fr, ev, nx⟩) (h : WF S s) :
    Runs (insertTrue (total pre + va.length) pre.length ty vs s)
      (fun r s' => Eff S True True s s'
        (cells pre ++ (va.map (fun v => some (ty, v)) ++ vs.map (fun v => some (ty, v)) ++ vb.map (fun v => some (ty, v))) ++ cells post)
        (vs.map (fun v => (ty, v))) []
        ∧ Holds s' r (total pre + va.length)) := by
  subst e
  have hb' : 0 < vs.length := List.length_pos_iff.2 hvs
  have hb2 : ¬ vs.length = 0 := by omega
  go h

theorem true_insert_other_top (S : Option Ty → Prop) (pre post : List (Blk α))
    (p i : Nat) (t ty : Ty) (hty : t ≠ ty) (v0 : List α) (vs : List α) (hvs : vs ≠ []) (c fr ev nx) (s : St α)
    (e : s = ⟨pre ++ ⟨p, v0.length, some ⟨i, t, v0⟩⟩ :: post, c, fr, ev, nx⟩) (h : WF S s) :
    Runs (insertTrue (total pre) pre.length ty vs s)
      (fun r s' => Eff S True True s s'
        (cells pre ++ (vs.map (fun v => some (ty, v)) ++ v0.map (fun v => some (t, v))) ++ cells post)
        (vs.map (fun v => (ty, v))) []
        ∧ Holds s' r (total pre)) := by
  subst e
  have hb' : 0 < vs.length := List.length_pos_iff.2 hvs
  have hb2 : ¬ vs.length = 0 := by omega
  have hty' : ¬ ty = t := fun e => hty e.symm
  prevs ty pre
  go h

theorem true_insert_other_mid (S : Option Ty → Prop) (pre post : List (Blk α))
    (p i : Nat) (t ty : Ty) (hty : t ≠ ty) (va vb : List α) (ha : va ≠ []) (hb : vb ≠ [])
    (vs : List α) (hvs : vs ≠ []) (c fr ev nx) (s : St α)
    (e : s = ⟨pre ++ ⟨p, va.length + vb.length, some ⟨i, t, va ++ vb⟩⟩ :: post, c, fr, ev, nx⟩) (h : WF S s) :
    Runs (insertTrue (total pre + va.length) pre.length ty vs s)
      (fun r s' => Eff S True True s s'
        (cells pre ++ (va.map (fun v => some (t, v)) ++ vs.map (fun v => some (ty, v)) ++ vb.map (fun v => some (t, v))) ++ cells post)
        (vs.map (fun v => (ty, v))) []
        ∧ Holds s' r (total pre + va.length)) := by
  subst e
  have hb' : 0 < vs.length := List.length_pos_iff.2 hvs
  have hb2 : ¬ vs.length = 0 := by omega
  have hty' : ¬ ty = t := fun e => hty e.symm
  have ha' : 0 < va.length := List.length_pos_iff.2 ha
  have ha2 : ¬ va.length = 0 := by omega
  have hbb' : 0 < vb.length := List.length_pos_iff.2 hb
  have hbb2 : ¬ vb.length = 0 := by omega
  go h

theorem insertTrue_ok {S : Option Ty → Prop} (hS : ∀ t, S t → t ≠ none) {s : St α} (h : WF S s)
    {pre post : List (Blk α)} {b : Blk α} (e : s.blocks = pre ++ b :: post) {a : Nat} (ha : a < b.size)
    (ty : Ty) (vs : List α) (hvs : vs ≠ []) :
    Runs (insertTrue (total pre + a) pre.length ty vs s)
      (fun r s' => Eff S True True s s'
          (splice (cells s.blocks) (total pre + a) 0 (vs.map (fun v => some (ty, v))))
          (vs.map (fun v => (ty, v))) []
        ∧ Holds s' r (total pre + a)) := by
  obtain ⟨ok, hpl, hp⟩ := ok_of_split h e
  rcases s with ⟨bs, c, fr, ev, nx⟩
  simp only at e
  subst e
  rcases head0_cases b a ok ha with ⟨p, m, rfl⟩ | ⟨p, i, t, va, y, vm, rfl, rfl⟩
  · rcases Nat.eq_zero_or_pos a with rfl | ha
    · have h1 := true_insert_none_top S hS pre post p (0 + (m + 1)) ty vs hvs c fr ev nx _ rfl h
      fit h1 (cells pre) [] (List.replicate (0 + (m + 1)) none ++ cells post)
    · have h1 := true_insert_none_mid S hS pre post p a (m + 1) ha (by omega) ty vs hvs c fr ev nx _ rfl h
      fit h1 (cells pre ++ List.replicate a none) [] (List.replicate (m + 1) none ++ cells post)
  · by_cases hty : t = ty
    · subst hty
      have h1 := true_insert_same S pre post p i t va (y :: vm) vs hvs c fr ev nx _ rfl h
      fit h1 (cells pre ++ va.map (fun v => some (t, v))) [] ((y :: vm).map (fun v => some (t, v)) ++ cells post)
    · rcases va with _ | ⟨v0, va⟩
      · simp only [List.nil_append, List.length_nil, Nat.zero_add, Nat.add_zero] at *
        have h1 := true_insert_other_top S pre post p i t ty hty (y :: vm) vs hvs c fr ev nx _ rfl h
        fit h1 (cells pre) [] ((y :: vm).map (fun v => some (t, v)) ++ cells post)
      · have h1 := true_insert_other_mid S pre post p i t ty hty (v0 :: va) (y :: vm) (by simp) (by simp) vs hvs c fr ev nx _ rfl h
        fit h1 (cells pre ++ (v0 :: va).map (fun v => some (t, v))) [] ((y :: vm).map (fun v => some (t, v)) ++ cells post)

theorem aos_insert_in {S : Option Ty → Prop} (hS : ∀ t, S t → t ≠ none) {s : St α} (h : WF S s) (at_ : At)
    {pos : Nat} (hp : pos < s.cur) (ty : Ty) (vs : List α) (hvs : vs ≠ []) :
    Runs (Aos.insert at_ pos ty vs s)
      (fun r s' => Eff S True True s s'
          (splice (cells s.blocks) pos 0 (vs.map (fun v => some (ty, v)))) (vs.map (fun v => (ty, v))) []
        ∧ Holds s' r pos) := by
  obtain ⟨pre, b, post, a, e, rfl, ha, hl, hn⟩ := lookup_in h at_ hp
  unfold Aos.insert
  rw [lookup_eq, ← insertTrue_eq]
  simp only [bind_apply, hl, obind_ok, nBlocks_ap, if_neg hn]
  exact insertTrue_ok hS h e ha ty vs hvs

theorem aos_insert_nil {S : Option Ty → Prop} {s : St α} (h : WF S s) (at_ : At) {pos : Nat} (hp : pos < s.cur) (ty : Ty) :
    Aos.insert at_ pos ty [] s = .ok (s.blocks.length, s) := by
  rw [insert_same (fun k => k.1 rfl)]
  exact insert_nil h at_ hp ty

theorem aos_insert_out {S : Option Ty → Prop} {s : St α} (h : WF S s) (at_ : At) {pos : Nat} (hp : s.cur ≤ pos)
    (hn : at_ = none ∨ 0 < s.cur) (ty : Ty) (vs : List α) : Aos.insert at_ pos ty vs s = .err .outOfRange s := by
  unfold Aos.insert
  rw [lookup_eq]
  simp [bind_apply, lookup_out h at_ hp hn, nBlocks_ap, throw_]

/-- Every call on the array-of-structures model does what the specification says, or throws and
changes nothing. -/
theorem aos_call_eff {S : Option Ty → Prop} (hS : ∀ t, S t → t ≠ none) {s : St α} (h : WF S s) (c : Call α)
    (hd : c.Defined (contents s)) (hg : (∀ t, S (some t)) ∨ c.NoGap (contents s)) :
    match c.spec (contents s) with
    | some L' => Runs (callRun c s) fun r s' =>
        Eff S (c.NoLeak (contents s)) (Reports (contents s) c) s s' L' c.given
            (c.handedOut (contents s)) ∧ c.RetOk (contents s) r s'
    | none => callRun c s = .err .outOfRange s := by
  by_cases hi : c.isInsert = true
  · cases c with
    | insert at_ pos ty vs =>
      rw [contents_eq] at *
      have hlen := cells_length h
      obtain ⟨hd1, hd2⟩ := hd
      have hhint : at_ = none ∨ 0 < s.cur := by
        by_cases hc : at_ = none
        · exact Or.inl hc
        · right; rw [← hlen]; exact List.length_pos_iff.2 (hd1 hc)
      by_cases hp : pos < (cells s.blocks).length
      · simp only [Call.spec, if_pos hp, callRun, bind_apply]
        by_cases h0 : vs = []
        · subst h0
          rw [aos_insert_nil h at_ (by omega) ty]
          exact ⟨_, _, rfl, (Eff.refl h).cast (by simp [cellsOf]), by simp [Call.RetOk]⟩
        · refine Runs.bind (aos_insert_in hS h at_ (by omega) ty vs h0) fun r s' hh => ⟨_, _, rfl, ?_, ?_⟩
          · exact (hh.1.cast (by simp [splice, cellsOf])).mono (fun _ => trivial) (fun _ => trivial)
          · simp only [Call.RetOk, if_neg h0]
            exact hh.2
      · simp only [Call.spec, if_neg hp, callRun, bind_apply]
        rw [aos_insert_out h at_ (by omega) hhint ty vs]
        rfl
    | _ => cases hi
  · have hm : ¬ Misreports s c := by cases c <;> first | exact id | exact absurd rfl hi
    rw [callRun_same hm]
    have := call_eff hS h c hd hg
    split <;> rename_i hs <;> rw [hs] at this
    · obtain ⟨r, s', h1, h2, h3⟩ := this
      refine ⟨r, s', h1, h2.mono id fun hr => ⟨fun k => absurd k hi, ?_⟩, h3⟩
      cases c <;> first | exact hr | trivial | exact absurd rfl hi
    · exact this

theorem aos_call2_eff {S : Option Ty → Prop} (hS : ∀ t, S t → t ≠ none) {s t : St α} (hs : WF S s) (ht : WF S t)
    (c : Call2 α) (hd : c.Defined (contents2 s t)) (hg : (∀ t, S (some t)) ∨ c.Each Call.NoGap (contents2 s t)) :
    match c.spec (contents2 s t) with
    | some p => Runs2 (call2Run c s t) fun _ s' t' =>
        Eff2 S (c.NoLeak (contents2 s t)) (c.Each Reports (contents2 s t)) s t s' t' p
          c.given (c.handedOut (contents2 s t))
    | none => call2Run c s t = .err .outOfRange s t := by
  have rest : call2Run c = c.run → c.isInsert = false → c.Each Call.NoMiss (contents2 s t) →
      match c.spec (contents2 s t) with
      | some p => Runs2 (call2Run c s t) fun _ s' t' =>
          Eff2 S (c.NoLeak (contents2 s t)) (c.Each Reports (contents2 s t)) s t s' t' p
            c.given (c.handedOut (contents2 s t))
      | none => call2Run c s t = .err .outOfRange s t := by
    intro he hi hn
    rw [he]
    have := call2_eff hS hs ht c hd hg
    split <;> rename_i hsp <;> rw [hsp] at this
    · obtain ⟨r, s', t', h1, h2⟩ := this
      exact ⟨r, s', t', h1, h2.mono id fun _ => ⟨fun k => absurd k (by rw [hi]; decide), hn⟩⟩
    · exact this
  cases c with
  | onA c =>
    have := aos_call_eff hS hs c hd hg
    simp only [Call2.spec, contents2]
    cases hc : c.spec (contents s) with
    | none =>
      rw [hc] at this
      simp only [Option.map_none, call2Run, onSrc_ap, this]
    | some L =>
      rw [hc] at this
      obtain ⟨r, s', h1, h2, -⟩ := this
      exact ⟨r, s', t, Mtv.onSrc_ok h1 t, Eff2.one ht h2⟩
  | onB c =>
    have := aos_call_eff hS ht c hd hg
    simp only [Call2.spec, contents2]
    cases hc : c.spec (contents t) with
    | none =>
      rw [hc] at this
      simp only [Option.map_none, call2Run, onDst_ap, this]
    | some L =>
      rw [hc] at this
      obtain ⟨r, t', h1, h2, -⟩ := this
      exact ⟨r, s, t', Mtv.onDst_ok h1 s, (Eff2.one hs h2).flip⟩
  | transferAB h a e d => exact rest (by unfold call2Run Call2.run; dsimp only; rw [transfer_eq]) rfl trivial
  | transferBA h a e d => exact rest (by unfold call2Run Call2.run; dsimp only; rw [transfer_eq]) rfl trivial
  | swapAB a e d => exact rest (by unfold call2Run Call2.run; dsimp only; rw [swapRange_eq]) rfl trivial
  | swapBA a e d => exact rest (by unfold call2Run Call2.run; dsimp only; rw [swapRange_eq]) rfl trivial
  | swapAll => exact rest (by unfold call2Run Call2.run; dsimp only; rw [swapAll_eq]) rfl trivial

theorem aos_run_history {S : Option Ty → Prop} (hS : ∀ t, S t → t ≠ none) (cs : List (Call α)) :
    ∀ {s : St α}, WF S s → Along Call.Defined (contents s) cs →
      ((∀ t, S (some t)) ∨ Along Call.NoGap (contents s) cs) →
      ∃ s', runAos cs s = some s' ∧
        Eff S (Along Call.NoLeak (contents s) cs) (Along Reports (contents s) cs) s s'
          (specRun (contents s) cs) (givenBy (contents s) cs) (handedBy (contents s) cs) := by
  induction cs with
  | nil =>
    intro s h _ _
    exact ⟨s, rfl, by simpa [specRun, givenBy, handedBy, contents_eq] using Eff.refl h⟩
  | cons c cs ih =>
    intro s h hd hg
    have hg1 : (∀ t, S (some t)) ∨ c.NoGap (contents s) := hg.imp id (fun hh => hh.1)
    have hc := aos_call_eff hS h c hd.1 hg1
    cases hs : c.spec (contents s) with
    | none =>
      rw [hs] at hc
      simp only at hc
      have ha : c.after (contents s) = contents s := by simp [Call.after, hs]
      obtain ⟨s', h1, h2⟩ := ih h (by have := hd.2; rwa [ha] at this) (hg.imp id (fun hh => by have := hh.2; rwa [ha] at this))
      refine ⟨s', by simp [runAos, hc, h1], ?_⟩
      have e1 : givenBy (contents s) (c :: cs) = givenBy (contents s) cs := by simp [givenBy, hs, ha]
      have e2 : handedBy (contents s) (c :: cs) = handedBy (contents s) cs := by simp [handedBy, hs, ha]
      have e3 : specRun (contents s) (c :: cs) = specRun (contents s) cs := by simp [specRun, ha]
      rw [e1, e2, e3]
      refine h2.mono (fun hh => by have := hh.2; rwa [ha] at this) (fun hh => by have := hh.2; rwa [ha] at this)
    | some L' =>
      rw [hs] at hc
      simp only at hc
      obtain ⟨r, s1, hr, hE, -⟩ := hc
      have hL : contents s1 = L' := by rw [contents_eq]; exact hE.cells
      have ha : c.after (contents s) = contents s1 := by simp [Call.after, hs, hL]
      obtain ⟨s', h1, h2⟩ := ih hE.wf (by have := hd.2; rwa [ha] at this) (hg.imp id (fun hh => by have := hh.2; rwa [ha] at this))
      refine ⟨s', by simp [runAos, hr, h1], ?_⟩
      have e1 : givenBy (contents s) (c :: cs) = c.given ++ givenBy (contents s1) cs := by simp [givenBy, hs, ha]
      have e2 : handedBy (contents s) (c :: cs) = c.handedOut (contents s) ++ handedBy (contents s1) cs := by
        simp [handedBy, hs, ha]
      have e3 : specRun (contents s) (c :: cs) = specRun (contents s1) cs := by simp [specRun, ha]
      rw [e1, e2, e3]
      refine ⟨h2.tile, h2.cur, h2.sep, h2.cells, ?_, ?_, ?_⟩
      · rintro hh z hz
        have h3 := hE.led hh.1 z hz
        have h4 := h2.led (by have := hh.2; rwa [ha] at this) z hz
        simp only [List.count_append]
        omega
      · have h3 := hE.evn
        have h4 := h2.evn
        omega
      · rintro hh i
        have h3 := hE.ev hh.1 i
        have h4 := h2.ev (by have := hh.2; rwa [ha] at this) i
        omega

theorem aos_run_history2 {S : Option Ty → Prop} (hS : ∀ t, S t → t ≠ none) (cs : List (Call2 α)) :
    ∀ {s t : St α}, WF S s → WF S t → Along2 Call2.Defined (contents2 s t) cs →
      ((∀ t, S (some t)) ∨ Along2 (Call2.Each Call.NoGap) (contents2 s t) cs) →
      ∃ s' t', runAos2 cs s t = some (s', t') ∧
        Eff2 S (Along2 Call2.NoLeak (contents2 s t) cs)
          (Along2 (Call2.Each Reports) (contents2 s t) cs) s t s' t'
          (specRun2 (contents2 s t) cs) (givenBy2 (contents2 s t) cs) (handedBy2 (contents2 s t) cs) := by
  induction cs with
  | nil =>
    intro s t hs ht _ _
    exact ⟨s, t, rfl, by simpa [specRun2, givenBy2, handedBy2] using Eff2.refl hs ht⟩
  | cons c cs ih =>
    intro s t hs ht hd hg
    have hc := aos_call2_eff hS hs ht c hd.1 (hg.imp id (fun hh => hh.1))
    cases hsp : c.spec (contents2 s t) with
    | none =>
      rw [hsp] at hc
      simp only at hc
      have ha : c.after (contents2 s t) = contents2 s t := by simp [Call2.after, hsp]
      obtain ⟨s', t', h1, h2⟩ := ih hs ht (by have := hd.2; rwa [ha] at this) (hg.imp id (fun hh => by have := hh.2; rwa [ha] at this))
      refine ⟨s', t', by simp [runAos2, hc, h1], ?_⟩
      have e1 : givenBy2 (contents2 s t) (c :: cs) = givenBy2 (contents2 s t) cs := by simp [givenBy2, hsp, ha]
      have e2 : handedBy2 (contents2 s t) (c :: cs) = handedBy2 (contents2 s t) cs := by simp [handedBy2, hsp, ha]
      have e3 : specRun2 (contents2 s t) (c :: cs) = specRun2 (contents2 s t) cs := by simp [specRun2, ha]
      rw [e1, e2, e3]
      exact h2.mono (fun hh => by have := hh.2; rwa [ha] at this) (fun hh => by have := hh.2; rwa [ha] at this)
    | some p =>
      rw [hsp] at hc
      obtain ⟨r, s1, t1, hr, hE⟩ := hc
      have hL : contents2 s1 t1 = p := Prod.ext hE.left hE.right
      have ha : c.after (contents2 s t) = contents2 s1 t1 := by simp [Call2.after, hsp, hL]
      obtain ⟨s', t', h1, h2⟩ := ih hE.wfs hE.wft (by have := hd.2; rwa [ha] at this) (hg.imp id (fun hh => by have := hh.2; rwa [ha] at this))
      refine ⟨s', t', by simp [runAos2, hr, h1], ?_⟩
      have e1 : givenBy2 (contents2 s t) (c :: cs) = c.given ++ givenBy2 (contents2 s1 t1) cs := by simp [givenBy2, hsp, ha]
      have e2 : handedBy2 (contents2 s t) (c :: cs) = c.handedOut (contents2 s t) ++ handedBy2 (contents2 s1 t1) cs := by
        simp [handedBy2, hsp, ha]
      have e3 : specRun2 (contents2 s t) (c :: cs) = specRun2 (contents2 s1 t1) cs := by simp [specRun2, ha]
      rw [e1, e2, e3]
      exact hE.trans h2 (fun hh => hh.1) (fun hh => by have := hh.2; rwa [ha] at this)
        (fun hh => hh.1) (fun hh => by have := hh.2; rwa [ha] at this)

end

end Mdds.Aos
