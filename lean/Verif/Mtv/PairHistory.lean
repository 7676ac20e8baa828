import Verif.Mtv.PairSpec
import Verif.Mtv.SwapMulti
import Verif.Mtv.History

/-!
# multi_type_vector: histories over two containers
-/

namespace Mdds.Mtv

set_option linter.unusedSectionVars false

variable {α : Type} [DecidableEq α]

/-- As many acquired events more than released events as there are element blocks. -/
def Bal (s : St α) : Prop := nacq s.evs = nrel s.evs + (ids s.blocks).length
/-- The same for one block. -/
def BalAt (i : Nat) (s : St α) : Prop := acqs i s.evs = rels i s.evs + (ids s.blocks).count i

/-- What a call on two containers does.  `lp`, `ep`: objects and events of single calls are
accounted for. -/
structure Eff2 (S : Option Ty → Prop) (lp ep : Prop) (s t s' t' : St α) (p : Pair α) (ins outs : List (Ty × α)) : Prop where
  wfs : WF S s'
  wft : WF S t'
  left : contents s' = p.1
  right : contents t' = p.2
  led : lp → ∀ z : Ty × α, z.1.managed = true →
    s'.freed.count z + t'.freed.count z + (contents s').count (some z) + (contents t').count (some z) + outs.count z
      = s.freed.count z + t.freed.count z + (contents s).count (some z) + (contents t).count (some z) + ins.count z
  evn : Bal s → Bal t → Bal s' ∧ Bal t'
  ev : ep → (∀ i, BalAt i s) → (∀ i, BalAt i t) → ∀ i, BalAt i s' ∧ BalAt i t'

theorem Eff2.refl {S : Option Ty → Prop} {lp ep : Prop} {s t : St α} (hs : WF S s) (ht : WF S t) :
    Eff2 S lp ep s t s t (contents2 s t) [] [] :=
  ⟨hs, ht, rfl, rfl, fun _ z _ => by simp, fun a b => ⟨a, b⟩, fun _ a b i => ⟨a i, b i⟩⟩

theorem Eff2.trans {S : Option Ty → Prop} {lp ep lp1 ep1 lp2 ep2 : Prop} {s t s1 t1 s2 t2 : St α} {p p' ins ins' outs outs'}
    (h1 : Eff2 S lp1 ep1 s t s1 t1 p ins outs) (h2 : Eff2 S lp2 ep2 s1 t1 s2 t2 p' ins' outs')
    (l1 : lp → lp1) (l2 : lp → lp2) (e1 : ep → ep1) (e2 : ep → ep2) :
    Eff2 S lp ep s t s2 t2 p' (ins ++ ins') (outs ++ outs') := by
  refine ⟨h2.wfs, h2.wft, h2.left, h2.right, ?_, ?_, ?_⟩
  · intro h z hz
    have a1 := h1.led (l1 h) z hz
    have a2 := h2.led (l2 h) z hz
    simp only [List.count_append]
    omega
  · intro a b
    have := h1.evn a b
    exact h2.evn this.1 this.2
  · intro h a b
    have := h1.ev (e1 h) a b
    exact h2.ev (e2 h) (fun i => (this i).1) (fun i => (this i).2)

theorem Eff2.mono {S : Option Ty → Prop} {lp ep lp' ep' : Prop} {s t s' t' : St α} {p ins outs}
    (h : Eff2 S lp ep s t s' t' p ins outs) (l : lp' → lp) (e : ep' → ep) : Eff2 S lp' ep' s t s' t' p ins outs :=
  ⟨h.wfs, h.wft, h.left, h.right, fun x => h.led (l x), h.evn, fun x => h.ev (e x)⟩

theorem Eff2.flip {S : Option Ty → Prop} {lp ep : Prop} {s t s' t' : St α} {p ins outs}
    (h : Eff2 S lp ep s t s' t' p ins outs) : Eff2 S lp ep t s t' s' p.swap ins outs :=
  ⟨h.wft, h.wfs, h.right, h.left, fun x z hz => by have := h.led x z hz; omega,
    fun a b => (h.evn b a).symm, fun x a b i => (h.ev x b a i).symm⟩

theorem Eff.bal {S : Option Ty → Prop} {lp ep : Prop} {s s' : St α} {L ins outs} (h : Eff S lp ep s s' L ins outs) (hb : Bal s) :
    Bal s' := by
  have := h.evn
  unfold Bal at *
  omega

theorem Eff.balAt {S : Option Ty → Prop} {lp ep : Prop} {s s' : St α} {L ins outs} (h : Eff S lp ep s s' L ins outs) (he : ep)
    {i : Nat} (hb : BalAt i s) : BalAt i s' := by
  have := h.ev he i
  unfold BalAt at *
  omega

theorem Eff2.one {S : Option Ty → Prop} {lp ep : Prop} {s t s' : St α} {L ins outs} (ht : WF S t)
    (h : Eff S lp ep s s' L ins outs) : Eff2 S lp ep s t s' t (L, contents t) ins outs :=
  ⟨h.wf, ht, by rw [contents_eq]; exact h.cells, rfl, fun x z hz => by
    have := h.led x z hz
    rw [← contents_eq, ← contents_eq] at this; omega,
    fun a b => ⟨h.bal a, b⟩, fun x a b i => ⟨h.balAt x (a i), b i⟩⟩

theorem splice_eq (L X : List (Cell α)) (a n : Nat) : splice L a n X = L.take a ++ X ++ L.drop (a + n) := by
  simp [splice]

theorem transfer_eff {S : Option Ty → Prop} (hS : ∀ t, S t → t ≠ none) {s t : St α} (hs : WF S s) (ht : WF S t)
    (h : At) (a e d : Nat) (hd : h ≠ none → contents s ≠ []) :
    match moveCells a e d (contents s) (contents t) with
    | some p => Runs2 (transfer false h a e d s t) fun r s' t' =>
        Eff2 S True True s t s' t' p [] [] ∧ pointsTo s' r a
    | none => transfer false h a e d s t = .err .outOfRange s t := by
  have hl : (contents s).length = s.cur := by rw [contents_eq]; exact cells_length hs
  have hl' : (contents t).length = t.cur := by rw [contents_eq]; exact cells_length ht
  unfold moveCells
  simp only [hl, hl']
  by_cases hb : a ≤ e ∧ e < s.cur ∧ d + (e - a + 1) ≤ t.cur
  · rw [if_pos hb]
    refine Runs2.imp (transfer_in hS hs ht h hb.1 hb.2.1 hb.2.2) ?_
    rintro r s' t' ⟨h1, h2, h3⟩
    refine ⟨⟨h1.wf, h2.wf, ?_, ?_, ?_, fun a b => ⟨h1.eff.bal a, h2.eff.bal b⟩,
      fun _ a b i => ⟨h1.eff.balAt trivial (a i), h2.eff.balAt trivial (b i)⟩⟩, h3⟩
    · rw [contents_eq, h1.cells, contents_eq, splice_eq, show a + (e - a + 1) = e + 1 by omega]
    · rw [contents_eq, h2.cells, contents_eq, contents_eq, splice_eq]
    · intro _ z hz
      have a1 := h1.led.led z hz
      have a2 := h2.led.led z hz
      simp only [contents_eq, List.count_nil] at a1 a2 ⊢
      omega
  · rw [if_neg hb]
    refine transfer_out hs h ?_ hb
    by_cases hc : h = none
    · exact .inl hc
    · right; rw [← hl]; exact List.length_pos_iff.2 (hd hc)

theorem swap_eff {S : Option Ty → Prop} (hS : ∀ t, S t → t ≠ none) {s t : St α} (hs : WF S s) (ht : WF S t)
    (a e d : Nat) :
    match exchangeCells a e d (contents s) (contents t) with
    | some p => Runs2 (swapRange a e d s t) fun _ s' t' =>
        Eff2 S (¬ Trapped (contents s) (contents t) a e d) True s t s' t' p [] []
    | none => swapRange a e d s t = .err .outOfRange s t := by
  have hl : (contents s).length = s.cur := by rw [contents_eq]; exact cells_length hs
  have hl' : (contents t).length = t.cur := by rw [contents_eq]; exact cells_length ht
  unfold exchangeCells
  simp only [hl, hl']
  by_cases hb : a ≤ e ∧ e < s.cur ∧ d + (e - a + 1) ≤ t.cur
  · rw [if_pos hb]
    refine Runs2.imp (swapRange_in hS hs ht hb.1 hb.2.1 hb.2.2) ?_
    rintro r s' t' ⟨h1, h2⟩
    refine ⟨h1.wf, h2.wf, ?_, ?_, ?_, fun a b => ⟨h1.bal a, h2.bal b⟩,
      fun _ a b i => ⟨h1.balAt trivial (a i), h2.balAt trivial (b i)⟩⟩
    · rw [contents_eq, h1.cells, contents_eq, contents_eq, splice_eq, show a + (e - a + 1) = e + 1 by omega]
    · rw [contents_eq, h2.cells, contents_eq, contents_eq, splice_eq]
    · intro hn z hz
      have hn' : ¬ DoubleDelete (cells s.blocks) (cells t.blocks) a d (e - a + 1) := by
        rw [← contents_eq, ← contents_eq]; exact hn
      have a1 := h1.led hn' z hz
      have a2 := h2.led hn' z hz
      simp only [contents_eq, List.count_nil] at a1 a2 ⊢
      omega
  · rw [if_neg hb]
    exact swapRange_out hb

/-- The call is an `insert` of values. -/
def Call2.isInsert : Call2 α → Bool
  | .onA c | .onB c => c.isInsert
  | _ => false

/-- Every call on two containers: it runs and does what the specification says, or throws and
changes nothing. -/
theorem call2_eff {S : Option Ty → Prop} (hS : ∀ t, S t → t ≠ none) {s t : St α} (hs : WF S s) (ht : WF S t)
    (c : Call2 α) (hd : c.Defined (contents2 s t)) (hg : (∀ t, S (some t)) ∨ c.Each Call.NoGap (contents2 s t)) :
    match c.spec (contents2 s t) with
    | some p => Runs2 (c.run s t) fun _ s' t' =>
        Eff2 S (c.NoLeak (contents2 s t)) ((c.isInsert = true → ∀ t, ¬ S t) ∧ c.Each Call.NoMiss (contents2 s t)) s t s' t' p
          c.given (c.handedOut (contents2 s t))
    | none => c.run s t = .err .outOfRange s t := by
  cases c with
  | onA c =>
    have := call_eff hS hs c hd hg
    simp only [Call2.spec, contents2]
    cases hc : c.spec (contents s) with
    | none =>
      rw [hc] at this
      simp only [Option.map_none, Call2.run, onSrc_ap, this]
    | some L =>
      rw [hc] at this
      obtain ⟨r, s', h1, h2, -⟩ := this
      exact ⟨r, s', t, onSrc_ok h1 t, Eff2.one ht h2⟩
  | onB c =>
    have := call_eff hS ht c hd hg
    simp only [Call2.spec, contents2]
    cases hc : c.spec (contents t) with
    | none =>
      rw [hc] at this
      simp only [Option.map_none, Call2.run, onDst_ap, this]
    | some L =>
      rw [hc] at this
      obtain ⟨r, t', h1, h2, -⟩ := this
      exact ⟨r, s, t', onDst_ok h1 s, (Eff2.one hs h2).flip⟩
  | transferAB h a e d =>
    have := transfer_eff hS hs ht h a e d hd
    simp only [Call2.spec, contents2]
    cases hc : moveCells a e d (contents s) (contents t) with
    | none =>
      rw [hc] at this
      simp only [Call2.run, bind2_apply, this, bind2_err]
    | some p =>
      rw [hc] at this
      obtain ⟨r, s', t', h1, h2, -⟩ := this
      exact ⟨.iter r, s', t', by simp only [Call2.run, bind2_apply, h1, bind2_ok, m2pure_apply],
        h2.mono (fun _ => trivial) (fun _ => trivial)⟩
  | transferBA h a e d =>
    have := transfer_eff hS ht hs h a e d hd
    simp only [Call2.spec, contents2]
    cases hc : moveCells a e d (contents t) (contents s) with
    | none =>
      rw [hc] at this
      simp only [Option.map_none, Call2.run, flipM, bind2_apply, this, bind2_err]
    | some p =>
      rw [hc] at this
      obtain ⟨r, s', t', h1, h2, -⟩ := this
      exact ⟨.iter r, t', s', by simp only [Call2.run, flipM, bind2_apply, h1, bind2_ok, m2pure_apply],
        (h2.mono (fun _ => trivial) (fun _ => trivial)).flip⟩
  | swapAB a e d =>
    have := swap_eff hS hs ht a e d
    simp only [Call2.spec, contents2]
    cases hc : exchangeCells a e d (contents s) (contents t) with
    | none =>
      rw [hc] at this
      simp only [Call2.run, bind2_apply, this, bind2_err]
    | some p =>
      rw [hc] at this
      obtain ⟨r, s', t', h1, h2⟩ := this
      exact ⟨.unit, s', t', by simp only [Call2.run, bind2_apply, h1, bind2_ok, m2pure_apply],
        h2.mono id (fun _ => trivial)⟩
  | swapBA a e d =>
    have := swap_eff hS ht hs a e d
    simp only [Call2.spec, contents2]
    cases hc : exchangeCells a e d (contents t) (contents s) with
    | none =>
      rw [hc] at this
      simp only [Option.map_none, Call2.run, flipM, bind2_apply, this, bind2_err]
    | some p =>
      rw [hc] at this
      obtain ⟨r, s', t', h1, h2⟩ := this
      exact ⟨.unit, t', s', by simp only [Call2.run, flipM, bind2_apply, h1, bind2_ok, m2pure_apply],
        (h2.mono id (fun _ => trivial)).flip⟩
  | swapAll =>
    exact ⟨.unit, t, s, rfl, ht, hs, rfl, rfl, fun _ z hz => by simp [Call2.given, Call2.handedOut]; omega,
      fun a b => ⟨b, a⟩, fun _ a b i => ⟨b i, a i⟩⟩

theorem run_history2 {S : Option Ty → Prop} (hS : ∀ t, S t → t ≠ none) (cs : List (Call2 α)) :
    ∀ {s t : St α}, WF S s → WF S t → Along2 Call2.Defined (contents2 s t) cs →
      ((∀ t, S (some t)) ∨ Along2 (Call2.Each Call.NoGap) (contents2 s t) cs) →
      ∃ s' t', runAll2 cs s t = some (s', t') ∧
        Eff2 S (Along2 Call2.NoLeak (contents2 s t) cs)
          ((∀ t, ¬ S t) ∧ Along2 (Call2.Each Call.NoMiss) (contents2 s t) cs) s t s' t'
          (specRun2 (contents2 s t) cs) (givenBy2 (contents2 s t) cs) (handedBy2 (contents2 s t) cs) := by
  induction cs with
  | nil =>
    intro s t hs ht _ _
    exact ⟨s, t, rfl, by simpa [specRun2, givenBy2, handedBy2] using Eff2.refl hs ht⟩
  | cons c cs ih =>
    intro s t hs ht hd hg
    have hc := call2_eff hS hs ht c hd.1 (hg.imp id (fun hh => hh.1))
    cases hsp : c.spec (contents2 s t) with
    | none =>
      rw [hsp] at hc
      simp only at hc
      have ha : c.after (contents2 s t) = contents2 s t := by simp [Call2.after, hsp]
      obtain ⟨s', t', h1, h2⟩ := ih hs ht (by have := hd.2; rwa [ha] at this) (hg.imp id (fun hh => by have := hh.2; rwa [ha] at this))
      refine ⟨s', t', by simp [runAll2, hc, h1], ?_⟩
      have e1 : givenBy2 (contents2 s t) (c :: cs) = givenBy2 (contents2 s t) cs := by simp [givenBy2, hsp, ha]
      have e2 : handedBy2 (contents2 s t) (c :: cs) = handedBy2 (contents2 s t) cs := by simp [handedBy2, hsp, ha]
      have e3 : specRun2 (contents2 s t) (c :: cs) = specRun2 (contents2 s t) cs := by simp [specRun2, ha]
      rw [e1, e2, e3]
      exact h2.mono (fun hh => by have := hh.2; rwa [ha] at this) (fun hh => ⟨hh.1, by have := hh.2.2; rwa [ha] at this⟩)
    | some p =>
      rw [hsp] at hc
      obtain ⟨r, s1, t1, hr, hE⟩ := hc
      have hL : contents2 s1 t1 = p := Prod.ext hE.left hE.right
      have ha : c.after (contents2 s t) = contents2 s1 t1 := by simp [Call2.after, hsp, hL]
      obtain ⟨s', t', h1, h2⟩ := ih hE.wfs hE.wft (by have := hd.2; rwa [ha] at this) (hg.imp id (fun hh => by have := hh.2; rwa [ha] at this))
      refine ⟨s', t', by simp [runAll2, hr, h1], ?_⟩
      have e1 : givenBy2 (contents2 s t) (c :: cs) = c.given ++ givenBy2 (contents2 s1 t1) cs := by simp [givenBy2, hsp, ha]
      have e2 : handedBy2 (contents2 s t) (c :: cs) = c.handedOut (contents2 s t) ++ handedBy2 (contents2 s1 t1) cs := by
        simp [handedBy2, hsp, ha]
      have e3 : specRun2 (contents2 s t) (c :: cs) = specRun2 (contents2 s1 t1) cs := by simp [specRun2, ha]
      rw [e1, e2, e3]
      exact hE.trans h2 (fun hh => hh.1) (fun hh => by have := hh.2; rwa [ha] at this)
        (fun hh => ⟨fun _ => hh.1, hh.2.1⟩) (fun hh => ⟨hh.1, by have := hh.2.2; rwa [ha] at this⟩)

end Mdds.Mtv
