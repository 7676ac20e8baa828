import Verif.Mtv.ReadLemmas

/-!
# multi_type_vector: the properties

Stated with `Spec.lean` (sequences of cells, histories of calls) and the model of the public
calls in `Api.lean`.  "Reachable" states come from a constructor by any history of calls whose
behaviour is defined; an exception is caught and the history goes on.
-/

namespace Mdds.Mtv

set_option linter.unusedSectionVars false
set_option linter.unusedSimpArgs false

variable {α : Type} [DecidableEq α]

/-! ### Reachable states -/

/-- The relaxed structure every reachable state has. -/
abbrev Weak : Option Ty → Prop := fun o => o ≠ none
/-- The strict structure. -/
abbrev Strict : Option Ty → Prop := fun _ => False

theorem weak_ne : ∀ t, Weak t → t ≠ none := fun _ h => h
theorem strict_ne : ∀ t, Strict t → t ≠ none := fun _ h => h.elim
theorem weak_all : ∀ t, Weak (some t) := fun t => by simp [Weak]

omit [DecidableEq α] in
theorem ctor_wf (k : Ctor α) {s₀ : St α} (h : k.run = .ok s₀) : WF Strict s₀ := by
  cases k with
  | default => cases h; exact ⟨trivial, rfl, by simp [mk0]⟩
  | sized n =>
    cases h
    by_cases hn : n = 0
    · simp only [mkSize, hn, if_true]; exact ⟨trivial, rfl, by simp [mk0]⟩
    · simp only [mkSize, hn, if_false]
      exact ⟨⟨rfl, ⟨by simp only; omega, by simp⟩, trivial⟩, by simp, by simp⟩
  | range n ty vs =>
    simp only [Ctor.run, mkRange] at h
    split at h
    · cases h; exact ⟨trivial, rfl, by simp [mk0]⟩
    · split at h
      · cases h
      · cases h
        exact ⟨⟨rfl, ⟨by simp only; omega, by simp; omega⟩, trivial⟩, by simp, by simp⟩

theorem reachable_wf {s : St α} (h : Reachable s) : WF Weak s := by
  obtain ⟨k, s₀, cs, h1, h2, -, h4⟩ := h
  obtain ⟨s', h5, h6⟩ := run_history weak_ne cs (wf_weaken (ctor_wf k h1)) h2 (Or.inl weak_all)
  rw [h5] at h4; cases h4
  exact h6.wf

theorem nogap_wf {s : St α} (h : ReachedBy Call.NoGap s) : WF Strict s := by
  obtain ⟨k, s₀, cs, h1, h2, h3, h4⟩ := h
  obtain ⟨s', h5, h6⟩ := run_history strict_ne cs (ctor_wf k h1) h2 (Or.inr h3)
  rw [h5] at h4; cases h4
  exact h6.wf

theorem len_cur {s : St α} (h : Reachable s) : (contents s).length = s.cur := by
  rw [contents_eq]; exact cells_length (reachable_wf h)

/-- One call on a well-formed state, in the vocabulary of the specification. -/
theorem call_spec_wf {s : St α} (h : WF Weak s) (c : Call α) (hd : c.Defined (contents s)) :
    match c.spec (contents s) with
    | some L' => ∃ r s', c.run s = .ok (r, s') ∧ WF Weak s' ∧ contents s' = L' ∧ c.RetOk (contents s) r s'
    | none => c.run s = .err .outOfRange s := by
  have := call_eff weak_ne h c hd (Or.inl weak_all)
  split <;> rename_i hs <;> rw [hs] at this
  · obtain ⟨r, s', h1, h2, h3⟩ := this
    exact ⟨r, s', h1, h2.wf, by rw [contents_eq, h2.cells], h3⟩
  · exact this

/-- One call on a reachable state, in the vocabulary of the specification. -/
theorem call_spec {s : St α} (h : Reachable s) (c : Call α) (hd : c.Defined (contents s)) :
    match c.spec (contents s) with
    | some L' => ∃ r s', c.run s = .ok (r, s') ∧ contents s' = L' ∧ c.RetOk (contents s) r s'
    | none => c.run s = .err .outOfRange s := by
  have := call_spec_wf (reachable_wf h) c hd
  split <;> rename_i hs <;> rw [hs] at this
  · obtain ⟨r, s', h1, -, h2, h3⟩ := this
    exact ⟨r, s', h1, h2, h3⟩
  · exact this

omit [DecidableEq α] in
theorem defined_hint {s : St α} {h : At} (hh : HintOk h s) : h ≠ none → contents s ≠ [] := by
  intro h1; rcases hh with h2 | h2
  · exact absurd h2 h1
  · exact h2

/-- From a call in the model to the call it wraps. -/
theorem unwrap {β : Type} {m : M α β} {f : β → Ret α} {s s' : St α} {r : Ret α}
    (h : (do let i ← m; M.pure (f i) : M α (Ret α)) s = .ok (r, s')) : ∃ i, m s = .ok (i, s') ∧ r = f i := by
  simp only [bind_apply] at h
  cases hm : m s with
  | ok p =>
    obtain ⟨i, s1⟩ := p
    rw [hm] at h
    simp only [obind_ok, M.pure, Res.ok.injEq, Prod.mk.injEq] at h
    obtain ⟨h1, rfl⟩ := h
    exact ⟨i, rfl, h1.symm⟩
  | err e s1 => rw [hm] at h; cases h
  | ub => rw [hm] at h; cases h

theorem unwrap_err {β : Type} {m : M α β} {f : β → Ret α} {s s' : St α} {e : Err}
    (h : (do let i ← m; M.pure (f i) : M α (Ret α)) s = .err e s') : m s = .err e s' := by
  simp only [bind_apply] at h
  cases hm : m s with
  | ok p => rw [hm] at h; cases h
  | err e s1 => rw [hm] at h; cases h; rfl
  | ub => rw [hm] at h; cases h

/-! ### A state the examples use: empty, two ints, three strings, one int -/

abbrev tI : Ty := ⟨0, false⟩
abbrev tS : Ty := ⟨1, false⟩
abbrev tM : Ty := ⟨50, true⟩
abbrev tN : Ty := ⟨51, true⟩

/-- The history behind the example state. -/
def demoCalls : List (Call Nat) :=
  [.pushBackEmpty, .pushBack tI 1, .pushBack tI 2, .pushBack tS 3, .pushBack tS 4, .pushBack tS 5, .pushBack tI 6]

/-- The state the examples use. -/
def demo : St Nat := (runAll demoCalls mk0).getD mk0

omit [DecidableEq α] in
theorem along_and {P Q : List (Cell α) → Call α → Prop} {L : List (Cell α)} {cs : List (Call α)} (h : ∀ L c, P L c → Q L c)
    (h1 : Along P L cs) : Along Q L cs := by
  induction cs generalizing L with
  | nil => trivial
  | cons c cs ih => exact ⟨h _ _ h1.1, ih h1.2⟩

theorem demo_run : runAll demoCalls mk0 = some demo := by decide +kernel

theorem demo_reached : ReachedBy Call.NoGap demo :=
  ⟨.default, mk0, demoCalls, rfl, by simp [demoCalls, Along, Call.Defined, Call.at_],
    by simp [demoCalls, Along, Call.NoGap], demo_run⟩

theorem reachedBy_reachable {P : List (Cell α) → Call α → Prop} {s : St α} (h : ReachedBy P s) : Reachable s := by
  obtain ⟨k, s₀, cs, h1, h2, h3, h4⟩ := h
  exact ⟨k, s₀, cs, h1, h2, along_and (fun _ _ _ => trivial) h3, h4⟩

theorem demo_reachable : Reachable demo := reachedBy_reachable demo_reached

theorem demo_contents : contents demo =
    [none, some (tI, 1), some (tI, 2), some (tS, 3), some (tS, 4), some (tS, 5), some (tI, 6)] := by decide +kernel

/-! ### C23–C28: modifying calls -/

/-- `set` replaces one cell and nothing else; past the end it throws and changes nothing. -/
theorem C23_set {s : St α} (h : Reachable s) (hint : At) (hh : HintOk hint s) (pos : Nat) (ty : Ty) (x : α) :
    (pos < (contents s).length → ∃ i s', set hint pos ty x s = .ok (i, s') ∧
      contents s' = (contents s).set pos (some (ty, x)) ∧ pointsTo s' i pos) ∧
    ((contents s).length ≤ pos → set hint pos ty x s = .err .outOfRange s) := by
  have := call_spec h (.set hint pos ty x) ⟨defined_hint hh, trivial⟩
  constructor
  · intro hp
    simp only [Call.spec, if_pos hp] at this
    obtain ⟨r, s', h1, h2, h3⟩ := this
    obtain ⟨i, h4, rfl⟩ := unwrap h1
    exact ⟨i, s', h4, h2, h3⟩
  · intro hp
    simp only [Call.spec, if_neg (Nat.not_lt.2 hp)] at this
    exact unwrap_err this

example : Reachable demo ∧ HintOk (some (some 3)) demo ∧ 4 < (contents demo).length := by
  refine ⟨demo_reachable, Or.inr ?_, ?_⟩ <;> rw [demo_contents] <;> decide +kernel

/-- Range `set` replaces exactly the range; if it does not fit it throws and changes nothing. -/
theorem C24_set_range {s : St α} (h : Reachable s) (hint : At) (hh : HintOk hint s) (pos : Nat) (ty : Ty) (vs : List α) :
    (vs ≠ [] → pos + vs.length ≤ (contents s).length → ∃ i s', setRange hint pos ty vs s = .ok (i, s') ∧
      contents s' = (contents s).take pos ++ vs.map (fun v => some (ty, v)) ++ (contents s).drop (pos + vs.length) ∧
      pointsTo s' i pos) ∧
    (vs ≠ [] → (contents s).length < pos + vs.length → setRange hint pos ty vs s = .err .outOfRange s) ∧
    (vs = [] → setRange hint pos ty vs s = .ok (s.blocks.length, s)) := by
  have := call_spec h (.setRange hint pos ty vs) ⟨defined_hint hh, trivial⟩
  refine ⟨?_, ?_, ?_⟩
  · intro hv hp
    simp only [Call.spec, if_neg hv, if_pos hp] at this
    obtain ⟨r, s', h1, h2, h3⟩ := this
    obtain ⟨i, h4, rfl⟩ := unwrap h1
    simp only [Call.RetOk, if_neg hv] at h3
    exact ⟨i, s', h4, h2, h3⟩
  · intro hv hp
    simp only [Call.spec, if_neg hv, if_neg (Nat.not_le.2 hp)] at this
    exact unwrap_err this
  · rintro rfl
    simp [setRange, bind_apply, curSize_ap, nBlocks_ap, M.pure]

example : Reachable demo ∧ HintOk none demo ∧ [7, 8, 9] ≠ [] ∧ 1 + [7, 8, 9].length ≤ (contents demo).length := by
  refine ⟨demo_reachable, Or.inl rfl, by simp, ?_⟩; rw [demo_contents]; decide +kernel

/-- `insert` puts the values in front of a cell. -/
theorem C25_insert {s : St α} (h : Reachable s) (hint : At) (hh : HintOk hint s) (pos : Nat) (ty : Ty) (vs : List α) :
    (pos < (contents s).length → ∃ i s', insert hint pos ty vs s = .ok (i, s') ∧
      contents s' = (contents s).take pos ++ vs.map (fun v => some (ty, v)) ++ (contents s).drop pos ∧
      (vs ≠ [] → pointsTo s' i pos)) ∧
    ((contents s).length ≤ pos → insert hint pos ty vs s = .err .outOfRange s) := by
  have := call_spec h (.insert hint pos ty vs) ⟨defined_hint hh, trivial⟩
  constructor
  · intro hp
    simp only [Call.spec, if_pos hp] at this
    obtain ⟨r, s', h1, h2, h3⟩ := this
    obtain ⟨i, h4, rfl⟩ := unwrap h1
    refine ⟨i, s', h4, h2, fun hv => ?_⟩
    simpa only [Call.RetOk, if_neg hv] using h3
  · intro hp
    simp only [Call.spec, if_neg (Nat.not_lt.2 hp)] at this
    exact unwrap_err this

example : Reachable demo ∧ HintOk (some none) demo ∧ 4 < (contents demo).length := by
  refine ⟨demo_reachable, Or.inr ?_, ?_⟩ <;> rw [demo_contents] <;> decide +kernel

/-- `insert_empty` puts empty cells in front of a cell. -/
theorem C25_insert_empty {s : St α} (h : Reachable s) (hint : At) (hh : HintOk hint s) (pos n : Nat) :
    (0 < n → pos < (contents s).length → ∃ i s', insertEmpty hint pos n s = .ok (i, s') ∧
      contents s' = (contents s).take pos ++ List.replicate n none ++ (contents s).drop pos ∧ pointsTo s' i pos) ∧
    (0 < n → (contents s).length ≤ pos → insertEmpty hint pos n s = .err .outOfRange s) ∧
    (n = 0 → insertEmpty hint pos n s = .ok (s.blocks.length, s)) := by
  have := call_spec h (.insertEmpty hint pos n) ⟨defined_hint hh, trivial⟩
  refine ⟨?_, ?_, ?_⟩
  · intro hn hp
    simp only [Call.spec, if_neg (Nat.pos_iff_ne_zero.1 hn), if_pos hp] at this
    obtain ⟨r, s', h1, h2, h3⟩ := this
    obtain ⟨i, h4, rfl⟩ := unwrap h1
    simp only [Call.RetOk, if_neg (Nat.pos_iff_ne_zero.1 hn)] at h3
    exact ⟨i, s', h4, h2, h3⟩
  · intro hn hp
    simp only [Call.spec, if_neg (Nat.pos_iff_ne_zero.1 hn), if_neg (Nat.not_lt.2 hp)] at this
    exact unwrap_err this
  · rintro rfl
    simp [insertEmpty, bind_apply, nBlocks_ap, M.pure]

example : Reachable demo ∧ HintOk (some (some 0)) demo ∧ 0 < 2 ∧ 4 < (contents demo).length := by
  refine ⟨demo_reachable, Or.inr ?_, by decide +kernel, ?_⟩ <;> rw [demo_contents] <;> decide +kernel

/-- `set_empty` empties exactly the range. -/
theorem C26_set_empty {s : St α} (h : Reachable s) (hint : At) (hh : HintOk hint s) (a b : Nat) :
    (a ≤ b → b < (contents s).length → ∃ i s', setEmpty hint a b s = .ok (i, s') ∧
      contents s' = (contents s).take a ++ List.replicate (b - a + 1) none ++ (contents s).drop (b + 1) ∧
      pointsTo s' i a) ∧
    ((b < a ∨ (contents s).length ≤ b) → setEmpty hint a b s = .err .outOfRange s) := by
  have := call_spec h (.setEmpty hint a b) ⟨defined_hint hh, trivial⟩
  constructor
  · intro h1 h2
    simp only [Call.spec, if_pos (And.intro h1 h2)] at this
    obtain ⟨r, s', h1, h2, h3⟩ := this
    obtain ⟨i, h4, rfl⟩ := unwrap h1
    exact ⟨i, s', h4, h2, h3⟩
  · intro hp
    simp only [Call.spec, if_neg (show ¬ (a ≤ b ∧ b < (contents s).length) by omega)] at this
    exact unwrap_err this

example : Reachable demo ∧ HintOk (some (some 9)) demo ∧ 2 ≤ 5 ∧ 5 < (contents demo).length := by
  refine ⟨demo_reachable, Or.inr ?_, by decide +kernel, ?_⟩ <;> rw [demo_contents] <;> decide +kernel

/-- `erase` removes exactly the range. -/
theorem C27_erase {s : St α} (h : Reachable s) (a b : Nat) :
    (a ≤ b → b < (contents s).length → ∃ s', erase a b s = .ok ((), s') ∧
      contents s' = (contents s).take a ++ (contents s).drop (b + 1)) ∧
    ((b < a ∨ (contents s).length ≤ b) → erase a b s = .err .outOfRange s) := by
  have := call_spec h (.erase a b) ⟨fun hn => (hn rfl).elim, trivial⟩
  constructor
  · intro h1 h2
    simp only [Call.spec, if_pos (And.intro h1 h2)] at this
    obtain ⟨r, s', h1, h2, -⟩ := this
    obtain ⟨i, h4, -⟩ := unwrap (f := fun _ => .unit) h1
    exact ⟨s', h4, h2⟩
  · intro hp
    simp only [Call.spec, if_neg (show ¬ (a ≤ b ∧ b < (contents s).length) by omega)] at this
    exact unwrap_err (f := fun _ => .unit) this

example : Reachable demo ∧ 3 ≤ 5 ∧ 5 < (contents demo).length := by
  refine ⟨demo_reachable, by decide +kernel, ?_⟩; rw [demo_contents]; decide +kernel

/-- `push_back` appends the value. -/
theorem C28_push_back {s : St α} (h : Reachable s) (ty : Ty) (x : α) : ∃ i s', pushBack ty x s = .ok (i, s') ∧
    contents s' = contents s ++ [some (ty, x)] ∧ pointsTo s' i (contents s).length := by
  obtain ⟨r, s', h1, h2, h3⟩ := call_spec h (.pushBack ty x) ⟨fun hn => (hn rfl).elim, trivial⟩
  obtain ⟨i, h4, rfl⟩ := unwrap h1
  exact ⟨i, s', h4, h2, h3⟩

example : Reachable demo := demo_reachable

/-- `push_back_empty` appends an empty cell. -/
theorem C28_push_back_empty {s : St α} (h : Reachable s) : ∃ i s', pushBackEmpty s = .ok (i, s') ∧
    contents s' = contents s ++ [none] ∧ pointsTo s' i (contents s).length := by
  obtain ⟨r, s', h1, h2, h3⟩ := call_spec h .pushBackEmpty ⟨fun hn => (hn rfl).elim, trivial⟩
  obtain ⟨i, h4, rfl⟩ := unwrap h1
  exact ⟨i, s', h4, h2, h3⟩

example : Reachable demo := demo_reachable

/-- `clear` empties the container. -/
theorem C28_clear {s : St α} (h : Reachable s) : ∃ s', clear s = .ok ((), s') ∧ contents s' = [] := by
  obtain ⟨r, s', h1, h2, h3⟩ := call_spec h .clear ⟨fun hn => (hn rfl).elim, trivial⟩
  obtain ⟨i, h4, -⟩ := unwrap (f := fun _ => .unit) h1
  exact ⟨s', h4, h2⟩

example : Reachable demo := demo_reachable

/-- `resize` cuts off or appends empty cells.  Partial: not proved (and false, see
`C28_resize_fails`) when it cuts a run of a managed type in two. -/
theorem C28_resize_partial {s : St α} (h : Reachable s) (n : Nat)
    (hm : ¬ (0 < n ∧ ∃ t, t.managed = true ∧ typeAt (contents s) n = some t ∧ typeAt (contents s) (n - 1) = some t)) :
    ∃ s', resize n s = .ok ((), s') ∧
      contents s' = (contents s).take n ++ List.replicate (n - (contents s).length) none := by
  obtain ⟨r, s', h1, h2, h3⟩ := call_spec h (.resize n) ⟨fun hn => (hn rfl).elim, hm⟩
  obtain ⟨i, h4, -⟩ := unwrap (f := fun _ => .unit) h1
  exact ⟨s', h4, h2⟩

example : Reachable demo ∧ ¬ (0 < 5 ∧ ∃ t, t.managed = true ∧ typeAt (contents demo) 5 = some t ∧
    typeAt (contents demo) (5 - 1) = some t) := by
  refine ⟨demo_reachable, ?_⟩
  rw [demo_contents]
  rintro ⟨-, t, h1, h2, h3⟩
  cases h2
  exact absurd h1 (by decide +kernel)

/-- One empty cell and three objects of a managed type. -/
def managedCalls : List (Call Nat) := [.pushBackEmpty, .pushBack tM 1, .pushBack tM 2, .pushBack tM 3]

/-- Finding M4: `resize` into a managed block that does not begin at position 0 reaches past
the end of the block's values: undefined behaviour. -/
theorem C28_resize_fails : ∃ s : St Nat, Reachable s ∧ resize 2 s = .ub := by
  refine ⟨(runAll managedCalls mk0).getD mk0, ⟨.default, mk0, managedCalls, rfl, ?_, ?_, by decide +kernel⟩, by decide +kernel⟩
  · simp [managedCalls, Along, Call.Defined, Call.at_]
  · simp [managedCalls, Along]

/-- A constructor shows what it was given. -/
theorem C28_construct (k : Ctor α) :
    match k.spec with
    | some L => ∃ s, k.run = .ok s ∧ contents s = L
    | none => k.run = .err .invalidArg := by
  cases k with
  | default => exact ⟨_, rfl, rfl⟩
  | sized n =>
    by_cases hn : n = 0
    · exact ⟨_, rfl, by simp [mkSize, hn, mk0, contents]⟩
    · exact ⟨_, rfl, by simp [mkSize, hn, contents]⟩
  | range n ty vs =>
    by_cases hn : n = 0
    · simp only [Ctor.spec, if_pos hn]; exact ⟨mk0, by simp [Ctor.run, mkRange, hn], rfl⟩
    · by_cases hl : n = vs.length
      · simp only [Ctor.spec, if_neg hn, if_pos hl]
        exact ⟨⟨[⟨0, n, some ⟨0, ty, vs⟩⟩], n, [], [.acq 0], 1⟩, by simp only [Ctor.run, mkRange, if_neg hn, if_neg (not_not.2 hl)],
          by simp [contents, cellsOf]⟩
      · simp [Ctor.spec, Ctor.run, mkRange, hn, hl]

/-- A whole history does to the sequence what its calls say, and never meets undefined
behaviour. -/
theorem C28_history (k : Ctor α) {s₀ : St α} (hk : k.run = .ok s₀) (cs : List (Call α))
    (hd : Along Call.Defined (contents s₀) cs) :
    ∃ s', runAll cs s₀ = some s' ∧ contents s' = specRun (contents s₀) cs := by
  obtain ⟨s', h5, h6⟩ := run_history weak_ne cs (wf_weaken (ctor_wf k hk)) hd (Or.inl weak_all)
  exact ⟨s', h5, by rw [contents_eq, h6.cells]⟩

example : (Ctor.default : Ctor Nat).run = .ok mk0 ∧ Along Call.Defined (contents (mk0 : St Nat)) demoCalls := by
  refine ⟨rfl, ?_⟩; simp [demoCalls, Along, Call.Defined, Call.at_]

/-! ### C29: reading -/

/-- `size` is the length of the sequence. -/
theorem C29_size {s : St α} (h : Reachable s) : size s = .ok ((contents s).length, s) := by
  rw [len_cur h]; rfl

example : Reachable demo ∧ (contents demo).length = 7 := ⟨demo_reachable, by rw [demo_contents]; rfl⟩

/-- `get` with the type of the cell returns its value (the type's empty value for an empty
cell); `get_type` and `is_empty` report the cell. -/
theorem C29_get {s : St α} (h : Reachable s) (pos : Nat) (hp : pos < (contents s).length) :
    getType pos s = .ok (typeAt (contents s) pos, s) ∧
    isEmpty pos s = .ok ((contents s)[pos].isNone, s) ∧
    (∀ ty x, (contents s)[pos] = some (ty, x) → get pos ty s = .ok (some x, s)) ∧
    (∀ ty, (contents s)[pos] = none → get pos ty s = .ok (none, s)) := by
  have hw := reachable_wf h
  have hp' : pos < s.cur := by rwa [← len_cur h]
  have hg := getType_in hw hp'
  have hget : ∀ ty v, (contents s)[pos] = v → (v.map Prod.fst = none ∨ v.map Prod.fst = some ty) →
      ∃ w, get pos ty s = .ok (w, s) ∧ v = w.map fun x => (ty, x) := by
    intro ty v hv ht
    obtain ⟨w, h1, h2⟩ := get_in hw hp' ty (by
      rw [← typeAt_eq, ← contents_eq]; simpa [typeAt, List.getElem?_eq_getElem hp, hv] using ht)
    refine ⟨w, h1, ?_⟩
    rw [← contents_eq, List.getElem?_eq_getElem hp, hv] at h2
    simpa using h2
  refine ⟨?_, ?_, ?_, ?_⟩
  · rw [contents_eq, typeAt_eq]; exact hg.1
  · rw [hg.2, ← typeAt_eq, ← contents_eq]
    simp [typeAt, List.getElem?_eq_getElem hp]
  · intro ty x hx
    obtain ⟨w, h1, h2⟩ := hget ty _ hx (by simp)
    cases w with
    | none => cases h2
    | some y => simp at h2; subst h2; exact h1
  · intro ty hx
    obtain ⟨w, h1, h2⟩ := hget ty _ hx (by simp)
    cases w with
    | none => exact h1
    | some y => cases h2

example : Reachable demo ∧ 4 < (contents demo).length ∧ (contents demo)[4]? = some (some (tS, 4)) := by
  refine ⟨demo_reachable, ?_, ?_⟩ <;> rw [demo_contents] <;> decide +kernel

/-- Reading past the end throws. -/
theorem C29_get_out {s : St α} (h : Reachable s) (pos : Nat) (hp : (contents s).length ≤ pos) (ty : Ty) :
    get pos ty s = .err .outOfRange s ∧ getType pos s = .err .outOfRange s ∧ isEmpty pos s = .err .outOfRange s :=
  read_out (by rwa [← len_cur h]) ty

example : Reachable demo ∧ (contents demo).length ≤ 7 := ⟨demo_reachable, by rw [demo_contents]; decide⟩

/-- `position` returns the one position object that designates the logical position (the end
position for `size()`), with or without a hint, and throws past it. -/
theorem C29_position {s : St α} (h : Reachable s) (hint : At) (hh : HintOk hint s) (pos : Nat) :
    (pos ≤ (contents s).length → ∃ p, position hint pos s = .ok (p, s) ∧ Designates s p pos ∧
      ∀ p', Designates s p' pos → p' = p) ∧
    ((contents s).length < pos → position hint pos s = .err .outOfRange s) := by
  have hw := reachable_wf h
  rw [len_cur h]
  constructor
  · intro hp
    obtain ⟨p, h1, h2⟩ := position_in hw hint hp
    exact ⟨p, h1, h2, fun p' h3 => designates_inj hw h3 h2⟩
  · intro hp
    refine position_out hw hint hp ?_
    rcases hh with hh | hh
    · exact Or.inl hh
    · right; rw [← len_cur h]; exact List.length_pos_iff.2 hh

example : Reachable demo ∧ HintOk (some (some 2)) demo ∧ 4 ≤ (contents demo).length := by
  refine ⟨demo_reachable, Or.inr ?_, ?_⟩ <;> rw [demo_contents] <;> decide +kernel

/-- `logical_position` inverts `position`; `next_position` moves by one and
`advance_position` by any number of steps that stays within the container. -/
theorem C29_move {s : St α} (h : Reachable s) (p : Nat × Nat) (pos : Nat) (hp : Designates s p pos) :
    (pos < (contents s).length → logicalPosition p s = .ok (pos, s)) ∧
    (pos < (contents s).length → ∃ p', nextPosition p s = .ok (p', s) ∧ Designates s p' (pos + 1)) ∧
    (∀ k : Int, 0 ≤ pos + k → pos + k ≤ (contents s).length →
      ∃ p', advancePosition p k s = .ok (p', s) ∧ Designates s p' (pos + k).toNat) := by
  have hw := reachable_wf h
  rw [len_cur h]
  exact ⟨logical_ok hp, next_ok hw hp, fun k => advance_ok hw hp k⟩

example : Reachable demo ∧ Designates demo (2, 1) 4 ∧ (0 : Int) ≤ 4 + (-3) :=
  ⟨demo_reachable, Or.inl ⟨⟨3, 3, some ⟨1, tS, [3, 4, 5]⟩⟩, by decide +kernel, by decide +kernel, by decide +kernel⟩, by decide +kernel⟩

/-- The value at a position object is the value at the logical position. -/
theorem C29_get_at {s : St α} (h : Reachable s) (p : Nat × Nat) (pos : Nat) (hp : Designates s p pos) (ty : Ty) (x : α)
    (hx : (contents s)[pos]? = some (some (ty, x))) : getAt p ty s = .ok (x, s) := by
  have hw := reachable_wf h
  have hlt : pos < (contents s).length := by
    by_contra hc
    rw [List.getElem?_eq_none (by omega)] at hx
    cases hx
  rcases hp with ⟨b, hb, h1, h2⟩ | ⟨-, h2⟩
  · have hi : p.1 < s.blocks.length := (List.getElem?_eq_some_iff.1 hb).1
    have hbe : s.blocks[p.1] = b := (List.getElem?_eq_some_iff.1 hb).2
    have e : s.blocks = s.blocks.take p.1 ++ b :: s.blocks.drop (p.1 + 1) := by rw [← hbe]; simp
    have hpos := ((tile_iff s.blocks 0).1 hw.tile _ _ hb).1
    have e2 : pos = total (s.blocks.take p.1) + p.2 := by omega
    rw [contents_eq, e2] at hx
    rcases cell_at hw e h1 with ⟨hd, hc⟩ | ⟨d, v, hd, hv, hc⟩
    · rw [hc] at hx; cases hx
    · rw [hc] at hx
      simp only [Option.some.injEq, Prod.mk.injEq] at hx
      obtain ⟨rfl, rfl⟩ := hx
      simp only [getAt, bind_apply, getB_ap, hb, obind_ok, hd, getValue_ok d p.2 v hv]
  · have := len_cur h; omega

example : Reachable demo ∧ Designates demo (2, 1) 4 ∧ (contents demo)[4]? = some (some (tS, 4)) :=
  ⟨demo_reachable, Or.inl ⟨⟨3, 3, some ⟨1, tS, [3, 4, 5]⟩⟩, by decide +kernel, by decide +kernel, by decide +kernel⟩, by rw [demo_contents]; rfl⟩

/-! ### C30: block structure -/

/-- After any history the blocks are contiguous from 0, none has size zero, each holds as many
values as its size says, and no two neighbours are both empty. -/
theorem C30_tiled {s : St α} (h : Reachable s) : Tiled s ∧ NoEmptyPair s := (wf_weak s).1 (reachable_wf h)

example : Reachable demo ∧ demo.blocks.length = 4 := ⟨demo_reachable, by decide +kernel⟩

/-- No two neighbours have one type.  Partial: for histories without the range `set` described
by `Call.NoGap`; false otherwise (`C30_canonical_fails`). -/
theorem C30_canonical_partial {s : St α} (h : ReachedBy Call.NoGap s) : Tiled s ∧ Canonical s :=
  (wf_canon s).1 (nogap_wf h)

example : ReachedBy Call.NoGap demo := demo_reached

/-- Two ints, two strings, two ints; then ints over positions 1 to 3. -/
def gapCalls : List (Call Nat) :=
  [.pushBack tI 1, .pushBack tI 2, .pushBack tS 3, .pushBack tS 4, .pushBack tI 5, .pushBack tI 6,
    .setRange none 1 tI [7, 8, 9]]

/-- The state after `gapCalls`. -/
def gap : St Nat := (runAll gapCalls mk0).getD mk0

theorem gap_reachable : Reachable gap :=
  ⟨.default, mk0, gapCalls, rfl, by simp [gapCalls, Along, Call.Defined, Call.at_], by simp [gapCalls, Along], by decide +kernel⟩

/-- Finding M7: two neighbouring blocks of one type stay unmerged. -/
theorem C30_canonical_fails : ∃ s : St Nat, Reachable s ∧ ¬ Canonical s := by
  refine ⟨gap, gap_reachable, fun hc => ?_⟩
  exact hc 0 ⟨0, 4, some ⟨0, tI, [1, 7, 8, 9]⟩⟩ ⟨4, 2, some ⟨2, tI, [5, 6]⟩⟩ (by decide +kernel) (by decide +kernel) rfl

/-! ### C31: comparison -/

/-- Containers that compare equal show the same sequence. -/
theorem C31_equal_sound {s t : St α} (h : equals s t = true) : contents s = contents t := by
  rw [contents_eq, contents_eq]; exact forall2_cells ((equals_iff s t).1 h).2

example : equals demo demo = true := by decide +kernel

/-- Comparison decides equality of the sequences.  Partial: for histories as in
`C30_canonical_partial`; false otherwise (`C31_equal_fails`). -/
theorem C31_equal_partial {s t : St α} (hs : ReachedBy Call.NoGap s) (ht : ReachedBy Call.NoGap t) :
    equals s t = true ↔ contents s = contents t := by
  refine ⟨C31_equal_sound, fun h => ?_⟩
  have ws := nogap_wf hs
  have wt := nogap_wf ht
  rw [contents_eq, contents_eq] at h
  refine (equals_iff s t).2 ⟨?_, canonical_unique _ _ 0 ws.tile wt.tile ws.sep wt.sep h⟩
  rw [← cells_length ws, ← cells_length wt, h]

/-- The example sequence built back to front. -/
def demoCalls2 : List (Call Nat) :=
  [.resize 7, .setRange none 1 tS [9, 9, 3, 4, 5], .set none 6 tI 6, .set (some (some 2)) 2 tI 2, .set (some none) 1 tI 1]

example : ReachedBy Call.NoGap demo ∧ ReachedBy Call.NoGap ((runAll demoCalls2 mk0).getD mk0) ∧
    runAll demoCalls2 mk0 ≠ some demo ∧ equals demo ((runAll demoCalls2 mk0).getD mk0) = true := by
  refine ⟨demo_reached, ⟨.default, mk0, demoCalls2, rfl, ?_, ?_, by decide +kernel⟩, by decide +kernel, by decide +kernel⟩
  · simp [demoCalls2, Along, Call.Defined, Call.at_, Call.after, Call.spec, contents, mk0, typeAt, cellsOf]
  · simp [demoCalls2, Along, Call.NoGap, Call.after, Call.spec, contents, mk0, typeAt]

/-- Finding M7 seen through comparison: two containers with the same values at all positions
that compare different. -/
theorem C31_equal_fails : ∃ s t : St Nat, Reachable s ∧ Reachable t ∧ contents s = contents t ∧ equals s t = false := by
  refine ⟨gap, (runAll [.resize 6, .setRange none 0 tI [1, 7, 8, 9, 5, 6]] mk0).getD mk0, gap_reachable,
    ⟨.default, mk0, [.resize 6, .setRange none 0 tI [1, 7, 8, 9, 5, 6]], rfl, ?_, ?_, by decide +kernel⟩, by decide +kernel, by decide +kernel⟩
  · simp [Along, Call.Defined, Call.at_, contents, mk0, typeAt]
  · simp [Along]

/-! ### C32: hints -/

/-- On a non-empty container the hint makes no difference to the block that is found. -/
theorem lookup_hint {s : St α} (hw : WF Weak s) (hn : contents s ≠ []) (hint : At) (pos : Nat) :
    lookup hint pos s = lookup none pos s := by
  by_cases hp : pos < s.cur
  · obtain ⟨pre, b, post, a, e, hpa, ha, hl, -⟩ := lookup_in hw hint hp
    obtain ⟨pre', b', post', a', e', hpa', ha', hl', -⟩ := lookup_in hw none hp
    obtain ⟨-, -, h1⟩ := ok_of_split hw e
    obtain ⟨-, -, h1'⟩ := ok_of_split hw e'
    have d1 : Designates s (pre.length, a) pos := Or.inl ⟨b, by rw [e]; simp, ha, by simp only; omega⟩
    have d2 : Designates s (pre'.length, a') pos := Or.inl ⟨b', by rw [e']; simp, ha', by simp only; omega⟩
    have := designates_inj hw d1 d2
    rw [hl, hl', (Prod.mk.inj this).1]
  · have h0 : 0 < s.cur := by rw [← cells_length hw, ← contents_eq]; exact List.length_pos_iff.2 hn
    rw [lookup_out hw hint (by omega) (Or.inr h0), lookup_out hw none (by omega) (Or.inl rfl)]

/-- A call with a hint on a well-formed state. -/
theorem hint_wf {s : St α} (h : WF Weak s) (hn : contents s ≠ []) (c : Call α) : c.run s = c.plain.run s := by
  have hl := fun hint pos => lookup_hint h hn hint pos
  cases c with
  | setRange hint pos ty vs =>
    simp only [Call.run, Call.plain, setRange, bind_apply, curSize_ap, nBlocks_ap, obind_ok]
    by_cases hv : vs.length = 0
    · simp [hv]
    by_cases hc : s.cur ≤ pos + vs.length - 1
    · simp [hv, hc]
    · simp only [if_neg hv, if_neg hc, bind_apply, hl hint pos]
      obtain ⟨pre, b, post, a, e, hpa, ha, hlk, hne⟩ := lookup_in h none (pos := pos) (by omega)
      simp [hlk, hne]
  | set | insert | setEmpty | release | releaseRange =>
    simp only [Call.run, Call.plain, set, insert, setEmpty, release, releaseRange, bind_apply, hl]
  | insertEmpty hint pos n =>
    simp only [Call.run, Call.plain, insertEmpty, bind_apply, nBlocks_ap, obind_ok]
    by_cases hv : n = 0
    · simp [hv]
    · simp only [if_neg hv, bind_apply, hl hint pos]
  | _ => rfl

/-- Whatever the hint, a call does exactly what it does without it: same result, same state,
same events, same exceptions. -/
theorem C32_hint {s : St α} (h : Reachable s) (hn : contents s ≠ []) (c : Call α) : c.run s = c.plain.run s :=
  hint_wf (reachable_wf h) hn c

example : Reachable demo ∧ contents demo ≠ [] := ⟨demo_reachable, by rw [demo_contents]; decide⟩

/-- `position` with a hint on a well-formed state. -/
theorem hint_position_wf {s : St α} (h : WF Weak s) (hn : contents s ≠ []) (hint : At) (pos : Nat) :
    position hint pos s = position none pos s := by
  simp only [position, bind_apply, curSize_ap, nBlocks_ap, obind_ok]
  split
  · rfl
  · simp only [bind_apply, lookup_hint h hn hint pos]

/-- The same for `position`. -/
theorem C32_hint_position {s : St α} (h : Reachable s) (hn : contents s ≠ []) (hint : At) (pos : Nat) :
    position hint pos s = position none pos s := hint_position_wf (reachable_wf h) hn hint pos

example : Reachable demo ∧ contents demo ≠ [] := ⟨demo_reachable, by rw [demo_contents]; decide⟩

/-- Finding M5: on an empty container a hinted call reads the first position although there is
none, where the plain call throws. -/
theorem C32_hint_empty_fails : set (some none) 0 tI 1 (mk0 : St Nat) = .ub ∧
    set none 0 tI 1 (mk0 : St Nat) = .err .outOfRange mk0 := by decide +kernel

/-! ### C35: release -/

/-- `release` returns the value of the cell, empties the cell and destroys nothing. -/
theorem C35_release {s : St α} (h : Reachable s) (hint : At) (hh : HintOk hint s) (pos : Nat) (ty : Ty)
    (ht : typeAt (contents s) pos = none ∨ typeAt (contents s) pos = some ty) :
    (∀ hp : pos < (contents s).length, ∃ v i s', release hint pos ty s = .ok ((v, i), s') ∧
      contents s' = (contents s).set pos none ∧ (contents s)[pos] = v.map (fun x => (ty, x)) ∧ pointsTo s' i pos ∧
      ∀ z : Ty × α, z.1.managed = true → s'.freed.count z = s.freed.count z) ∧
    ((contents s).length ≤ pos → release hint pos ty s = .err .outOfRange s) := by
  have := call_eff weak_ne (reachable_wf h) (.release hint pos ty) ⟨defined_hint hh, ht⟩ (Or.inl weak_all)
  constructor
  · intro hp
    simp only [Call.spec, if_pos hp] at this
    obtain ⟨r, s', h1, h2, h3⟩ := this
    obtain ⟨⟨v, i⟩, h4, rfl⟩ := unwrap (f := fun r : Option α × Nat => .val r.1 r.2) h1
    have hv : (contents s)[pos] = v.map (fun x => (ty, x)) := by
      have := h3.2
      rw [List.getElem?_eq_getElem hp] at this
      simpa using this
    refine ⟨v, i, s', h4, by rw [contents_eq, h2.cells], hv, h3.1, fun z hz => ?_⟩
    have hl := h2.led trivial z hz
    rw [h2.cells, ← contents_eq] at hl
    have e1 : (contents s).drop pos = (contents s)[pos] :: (contents s).drop (pos + 1) := List.drop_eq_getElem_cons hp
    have e2 : (contents s).count (some z) = ((contents s).take pos).count (some z) + (((contents s)[pos] :: (contents s).drop (pos + 1)).count (some z)) := by
      rw [← e1, ← List.count_append, List.take_append_drop]
    have e3 : ((contents s).set pos none).count (some z) = ((contents s).take pos).count (some z) + (((contents s).drop (pos + 1)).count (some z)) := by
      rw [List.set_eq_take_append_cons_drop, if_pos hp, List.count_append, List.count_cons]; simp
    simp only [Call.handedOut, e1, List.take_succ_cons, List.take_zero, Call.given, List.count_nil] at hl
    rw [e2, e3, List.count_cons] at hl
    rcases hc : (contents s)[pos] with _ | y
    · rw [hc] at hl; simp [valuesOf] at hl; omega
    · rw [hc] at hl
      simp [valuesOf, List.count_cons] at hl
      omega
  · intro hp
    simp only [Call.spec, if_neg (Nat.not_lt.2 hp)] at this
    exact unwrap_err this

example : Reachable demo ∧ HintOk (some (some 1)) demo ∧ typeAt (contents demo) 4 = some tS ∧ 4 < (contents demo).length := by
  refine ⟨demo_reachable, Or.inr ?_, ?_, ?_⟩ <;> rw [demo_contents] <;> decide +kernel

/-- Values of a stretch are the managed objects that leave the ledger. -/
theorem count_split {L : List (Cell α)} (a n : Nat) (z : Ty × α) :
    L.count (some z) = (L.take a ++ List.replicate n none ++ L.drop (a + n)).count (some z) +
      (valuesOf ((L.drop a).take n)).count z := by
  have e : L = L.take a ++ ((L.drop a).take n ++ L.drop (a + n)) := by
    have e1 : (L.drop a).drop n = L.drop (a + n) := by rw [List.drop_drop]
    rw [← e1, List.take_append_drop, List.take_append_drop]
  conv => lhs; rw [e]
  unfold valuesOf
  rw [count_fm]
  simp only [List.count_append, List.count_replicate]
  simp
  omega

/-- `release_range` empties the range and destroys nothing. -/
theorem C35_release_range {s : St α} (h : Reachable s) (hint : At) (hh : HintOk hint s) (a b : Nat) :
    (a ≤ b → b < (contents s).length → ∃ i s', releaseRange hint a b s = .ok (i, s') ∧
      contents s' = (contents s).take a ++ List.replicate (b - a + 1) none ++ (contents s).drop (b + 1) ∧
      pointsTo s' i a ∧ ∀ z : Ty × α, z.1.managed = true → s'.freed.count z = s.freed.count z) ∧
    ((b < a ∨ (contents s).length ≤ b) → releaseRange hint a b s = .err .outOfRange s) := by
  have := call_eff weak_ne (reachable_wf h) (.releaseRange hint a b) ⟨defined_hint hh, trivial⟩ (Or.inl weak_all)
  constructor
  · intro h1 h2
    simp only [Call.spec, if_pos (And.intro h1 h2)] at this
    obtain ⟨r, s', h4, h5, h6⟩ := this
    obtain ⟨i, h7, rfl⟩ := unwrap h4
    refine ⟨i, s', h7, by rw [contents_eq, h5.cells], h6, fun z hz => ?_⟩
    have hl := h5.led trivial z hz
    rw [h5.cells, ← contents_eq] at hl
    have := count_split (L := contents s) a (b - a + 1) z
    rw [show a + (b - a + 1) = b + 1 by omega] at this
    simp only [Call.handedOut, Call.given, List.count_nil] at hl
    omega
  · intro hp
    simp only [Call.spec, if_neg (show ¬ (a ≤ b ∧ b < (contents s).length) by omega)] at this
    exact unwrap_err this

example : Reachable demo ∧ HintOk none demo ∧ 2 ≤ 5 ∧ 5 < (contents demo).length := by
  refine ⟨demo_reachable, Or.inl rfl, by decide +kernel, ?_⟩; rw [demo_contents]; decide +kernel

/-- `release()` empties the container and destroys nothing. -/
theorem C35_release_all {s : St α} (h : Reachable s) : ∃ s', releaseAll s = .ok ((), s') ∧ contents s' = [] ∧
    ∀ z : Ty × α, z.1.managed = true → s'.freed.count z = s.freed.count z := by
  obtain ⟨r, s', h4, h5, h6⟩ := call_eff weak_ne (reachable_wf h) .releaseAll ⟨fun hn => (hn rfl).elim, trivial⟩ (Or.inl weak_all)
  obtain ⟨i, h7, -⟩ := unwrap (f := fun _ => .unit) h4
  refine ⟨s', h7, by rw [contents_eq, h5.cells], fun z hz => ?_⟩
  have hl := h5.led trivial z hz
  rw [h5.cells, ← contents_eq] at hl
  simp only [Call.handedOut, Call.given, List.count_nil, valuesOf, count_fm] at hl
  omega

example : Reachable demo := demo_reachable

/-! ### C36: managed objects -/

theorem ctor_ledger (k : Ctor α) {s₀ : St α} (h : k.run = .ok s₀) (z : Ty × α) :
    s₀.freed.count z + (contents s₀).count (some z) = k.given.count z := by
  cases k with
  | default => cases h; rfl
  | sized n =>
    cases h
    by_cases hn : n = 0
    · simp [mkSize, hn, mk0, contents, Ctor.given]
    · simp [mkSize, hn, contents, Ctor.given, List.count_replicate]
  | range n ty vs =>
    simp only [Ctor.run, mkRange] at h
    split at h
    · cases h; simp [mk0, contents, Ctor.given, *]
    · split at h
      · cases h
      · cases h
        rename_i h1 h2
        simp only [contents, Ctor.given, if_neg h1, List.flatMap_cons, List.flatMap_nil, List.append_nil, List.count_nil, Nat.zero_add]
        rw [show (fun v => some (ty, v)) = (some ∘ fun v : α => (ty, v)) from rfl, ← List.map_map]
        generalize vs.map (fun v : α => (ty, v)) = l
        induction l with
        | nil => rfl
        | cons a l ih => simp [List.count_cons, ih]

/-- At every moment each managed object given to the container is counted once: it is
destroyed, stored or was handed back.  Partial: for histories without the calls described by
`Call.NoLeak` (finding M2, see `C36_leak_fails`). -/
theorem C36_ledger_partial (k : Ctor α) {s₀ s : St α} (hk : k.run = .ok s₀) (cs : List (Call α))
    (hd : Along Call.Defined (contents s₀) cs) (hl : Along Call.NoLeak (contents s₀) cs) (hr : runAll cs s₀ = some s)
    (z : Ty × α) (hz : z.1.managed = true) :
    s.freed.count z + (contents s).count (some z) + (handedBy (contents s₀) cs).count z
      = k.given.count z + (givenBy (contents s₀) cs).count z := by
  obtain ⟨s', h5, h6⟩ := run_history weak_ne cs (wf_weaken (ctor_wf k hk)) hd (Or.inl weak_all)
  rw [h5] at hr; cases hr
  have h1 := h6.led hl z hz
  have h2 := ctor_ledger k hk z
  rw [← contents_eq, ← contents_eq] at h1
  omega

/-- Objects of two managed types, one replaced, one erased, one released, the rest cut off. -/
def ownCalls : List (Call Nat) :=
  [.resize 6, .setRange none 0 tM [1, 2, 3], .setRange none 3 tN [4, 5], .set none 1 tN 6, .release none 3 tN,
    .erase 0 0, .insert none 1 tM [7, 8], .resize 4]

theorem own_defined : Along Call.Defined (contents (mk0 : St Nat)) ownCalls := by
  simp [ownCalls, Along, Call.Defined, Call.at_, Call.after, Call.spec, contents, mk0, typeAt, cellsOf]

theorem own_noLeak : Along Call.NoLeak (contents (mk0 : St Nat)) ownCalls := by
  simp [ownCalls, Along, Call.NoLeak, Call.after, Call.spec, contents, mk0, typeAt, cellsOf]

example : (Ctor.default : Ctor Nat).run = .ok mk0 ∧ Along Call.Defined (contents (mk0 : St Nat)) ownCalls ∧
    Along Call.NoLeak (contents (mk0 : St Nat)) ownCalls ∧ (runAll ownCalls (mk0 : St Nat)).isSome ∧ tM.managed = true :=
  ⟨rfl, own_defined, own_noLeak, by decide +kernel, rfl⟩

theorem destroy_clear (s : St α) : ∃ s₁ s₂, clear s = .ok ((), s₁) ∧ destroy s = .ok ((), s₂) ∧ s₂.freed = s₁.freed ∧ s₂.evs = s₁.evs := by
  obtain ⟨bs, c, fr, ev, nx⟩ := s
  refine ⟨⟨[], 0, fr ++ typed bs, ev ++ (ids bs).map Ev.rel, nx⟩, ⟨bs.map clr, c, fr ++ typed bs, ev ++ (ids bs).map Ev.rel, nx⟩, ?_, ?_, rfl, rfl⟩
  · simp [mev]
  · simp [destroy, mev]

/-- Over the whole life of a container, every managed object given to it is destroyed exactly
once unless it was handed back, in which case it is not destroyed.  Partial: as above. -/
theorem C36_lifetime_partial (k : Ctor α) {s₀ s : St α} (hk : k.run = .ok s₀) (cs : List (Call α))
    (hd : Along Call.Defined (contents s₀) cs) (hl : Along Call.NoLeak (contents s₀) cs) (hr : runAll cs s₀ = some s) :
    ∃ s', destroy s = .ok ((), s') ∧ ∀ z : Ty × α, z.1.managed = true →
      s'.freed.count z + (handedBy (contents s₀) cs).count z = k.given.count z + (givenBy (contents s₀) cs).count z := by
  obtain ⟨s₁, s₂, h1, h2, h3, -⟩ := destroy_clear s
  refine ⟨s₂, h2, fun z hz => ?_⟩
  have hw : WF Weak s := reachable_wf ⟨k, s₀, cs, hk, hd, along_and (fun _ _ _ => trivial) hl, hr⟩
  obtain ⟨_, s₁', h4, h5⟩ := clear_eff Weak s.blocks s.cur s.freed s.evs s.next s rfl hw
  rw [h1] at h4; cases h4
  have h6 := h5.led trivial z hz
  have h7 := C36_ledger_partial k hk cs hd hl hr z hz
  rw [h5.cells] at h6
  rw [← contents_eq] at h6
  simp only [List.count_nil] at h6
  rw [h3]
  omega

example : (Ctor.default : Ctor Nat).run = .ok mk0 ∧ Along Call.Defined (contents (mk0 : St Nat)) ownCalls ∧
    Along Call.NoLeak (contents (mk0 : St Nat)) ownCalls ∧ (runAll ownCalls (mk0 : St Nat)).isSome :=
  ⟨rfl, own_defined, own_noLeak, by decide +kernel⟩

/-- For objects all different from one another: destroyed at most once, and never while stored
or after having been handed back. -/
theorem C36_once_partial (k : Ctor α) {s₀ s : St α} (hk : k.run = .ok s₀) (cs : List (Call α))
    (hd : Along Call.Defined (contents s₀) cs) (hl : Along Call.NoLeak (contents s₀) cs) (hr : runAll cs s₀ = some s)
    (hn : (k.given ++ givenBy (contents s₀) cs).Nodup) (z : Ty × α) (hz : z.1.managed = true) :
    s.freed.count z ≤ 1 ∧ (z ∈ s.freed → some z ∉ contents s ∧ z ∉ handedBy (contents s₀) cs) ∧
      (z ∈ k.given ++ givenBy (contents s₀) cs → z ∈ s.freed ∨ some z ∈ contents s ∨ z ∈ handedBy (contents s₀) cs) := by
  have h := C36_ledger_partial k hk cs hd hl hr z hz
  have h1 : (k.given ++ givenBy (contents s₀) cs).count z ≤ 1 := List.nodup_iff_count.1 hn z
  rw [List.count_append] at h1
  refine ⟨by omega, fun hf => ?_, fun hg => ?_⟩
  · have := List.count_pos_iff.2 hf
    constructor
    · intro hc; have := List.count_pos_iff.2 hc; omega
    · intro hc; have := List.count_pos_iff.2 hc; omega
  · have := List.count_pos_iff.2 hg
    rw [List.count_append] at this
    by_contra hc
    simp only [not_or] at hc
    have c1 := List.count_eq_zero.2 hc.1
    have c2 := List.count_eq_zero.2 hc.2.1
    have c3 := List.count_eq_zero.2 hc.2.2
    omega

example : (Ctor.default : Ctor Nat).run = .ok mk0 ∧ Along Call.Defined (contents (mk0 : St Nat)) ownCalls ∧
    Along Call.NoLeak (contents (mk0 : St Nat)) ownCalls ∧ (runAll ownCalls (mk0 : St Nat)).isSome ∧
    ((Ctor.default : Ctor Nat).given ++ givenBy (contents (mk0 : St Nat)) ownCalls).Nodup :=
  ⟨rfl, own_defined, own_noLeak, by decide +kernel, by decide +kernel⟩

/-- Two objects of one managed type, then two of another, then a range `set` from the first
run into the middle of the second. -/
def leakCalls : List (Call Nat) :=
  [.pushBack tM 1, .pushBack tM 2, .pushBack tN 3, .pushBack tN 4, .setRange none 1 tM [5, 6]]

/-- Finding M2: the object 3 is overwritten but never destroyed. -/
theorem C36_leak_fails : ∃ s s' : St Nat, Reachable s ∧ runAll leakCalls mk0 = some s ∧ destroy s = .ok ((), s') ∧
    some (tN, 3) ∉ contents s ∧ (tN, 3) ∈ givenBy [] leakCalls ∧ (tN, 3) ∉ s'.freed ∧ handedBy [] leakCalls = [] := by
  refine ⟨(runAll leakCalls mk0).getD mk0, ((destroy ((runAll leakCalls mk0).getD mk0)).state).getD mk0,
    ⟨.default, mk0, leakCalls, rfl, ?_, ?_, by decide +kernel⟩, by decide +kernel, by decide +kernel, by decide +kernel, by decide +kernel, by decide +kernel, by decide +kernel⟩
  · simp [leakCalls, Along, Call.Defined, Call.at_]
  · simp [leakCalls, Along]

/-! ### C37: events -/

theorem liveBlocks_eq (s : St α) : liveBlocks s = ids s.blocks := by
  unfold liveBlocks ids
  induction s.blocks with
  | nil => rfl
  | cons b l ih =>
    rw [List.filterMap_cons, List.flatMap_cons, ← ih]
    rcases b with ⟨p, n, _ | d⟩ <;> simp

/-- After every history the number of acquired notifications minus the number of released ones
is the number of element blocks held. -/
theorem C37_count {s : St α} (h : Reachable s) :
    (s.evs.filter fun e => match e with | .acq _ => true | .rel _ => false).length =
      (s.evs.filter fun e => match e with | .acq _ => false | .rel _ => true).length + (liveBlocks s).length := by
  obtain ⟨k, s₀, cs, h1, h2, -, h4⟩ := h
  obtain ⟨s', h5, h6⟩ := run_history weak_ne cs (wf_weaken (ctor_wf k h1)) h2 (Or.inl weak_all)
  rw [h5] at h4; cases h4
  have h7 := h6.evn
  have h0 : nacq s₀.evs = nrel s₀.evs + (ids s₀.blocks).length := by
    cases k with
    | default => cases h1; rfl
    | sized n => cases h1; by_cases hn : n = 0 <;> simp [mkSize, hn, mk0]
    | range n ty vs =>
      simp only [Ctor.run, mkRange] at h1
      split at h1
      · cases h1; rfl
      · split at h1
        · cases h1
        · cases h1; rfl
  rw [liveBlocks_eq, ← List.countP_eq_length_filter, ← List.countP_eq_length_filter]
  have e1 : s.evs.countP (fun e => match e with | .acq _ => true | .rel _ => false) = nacq s.evs := by
    unfold nacq; congr 1
  have e2 : s.evs.countP (fun e => match e with | .acq _ => false | .rel _ => true) = nrel s.evs := by
    unfold nrel; congr 1; funext e; cases e <;> rfl
  rw [e1, e2]
  omega

example : Reachable demo ∧ (liveBlocks demo).length = 3 := ⟨demo_reachable, by decide +kernel⟩

theorem along_both {P Q : List (Cell α) → Call α → Prop} {L : List (Cell α)} {cs : List (Call α)}
    (h : Along (fun L c => P L c ∧ Q L c) L cs) : Along P L cs ∧ Along Q L cs :=
  ⟨along_and (fun _ _ h => h.1) h, along_and (fun _ _ h => h.2) h⟩

/-- Every block is reported acquired exactly once more than released while the container holds
it, and equally often otherwise.  Partial: for histories that satisfy `Call.NoGap` and
`Call.NoMiss`; false otherwise (`C37_insert_fails`, `C37_set_fails`). -/
theorem C37_events_partial {s : St α} (h : ReachedBy (fun L c => c.NoGap L ∧ c.NoMiss L) s) (i : Nat) :
    acquiredCount i s = releasedCount i s + (liveBlocks s).count i := by
  obtain ⟨k, s₀, cs, h1, h2, h3, h4⟩ := h
  obtain ⟨h31, h32⟩ := along_both h3
  obtain ⟨s', h5, h6⟩ := run_history strict_ne cs (ctor_wf k h1) h2 (Or.inr h31)
  rw [h5] at h4; cases h4
  have h7 := h6.ev ⟨fun _ h => h, h32⟩ i
  have h0 : acqs i s₀.evs = rels i s₀.evs + (ids s₀.blocks).count i := by
    cases k with
    | default => cases h1; rfl
    | sized n => cases h1; by_cases hn : n = 0 <;> simp [mkSize, hn, mk0]
    | range n ty vs =>
      simp only [Ctor.run, mkRange] at h1
      split at h1
      · cases h1; rfl
      · split at h1
        · cases h1
        · cases h1
          by_cases hi : i = 0
          · subst hi; rfl
          · have : 0 ≠ i := fun hh => hi hh.symm
            simp [acqs, rels, ids, List.count_cons, this]
  rw [liveBlocks_eq]
  unfold acqs rels at *
  unfold acquiredCount releasedCount
  omega

example : ReachedBy (fun L c => c.NoGap L ∧ c.NoMiss L) demo ∧ (liveBlocks demo).count 1 = 1 :=
  ⟨⟨.default, mk0, demoCalls, rfl, by simp [demoCalls, Along, Call.Defined, Call.at_],
    by simp [demoCalls, Along, Call.NoGap, Call.NoMiss], demo_run⟩, by decide +kernel⟩

/-- Finding M1: inserting in front of a block of another type reports the old block instead of
the new one. -/
theorem C37_insert_fails : ∃ s : St Nat, Reachable s ∧ ∃ i ∈ liveBlocks s, acquiredCount i s = 0 := by
  refine ⟨(runAll [.pushBack tI 1, .insert none 0 tS [2]] mk0).getD mk0,
    ⟨.default, mk0, [.pushBack tI 1, .insert none 0 tS [2]], rfl, ?_, ?_, by decide +kernel⟩, 1, by decide +kernel, by decide +kernel⟩
  · simp [Along, Call.Defined, Call.at_]
  · simp [Along]

/-- A range `set` into the front of a block of another type replaces the block object without
a notification. -/
theorem C37_set_fails : ∃ s : St Nat, Reachable s ∧ ∃ i ∈ liveBlocks s, acquiredCount i s = 0 := by
  refine ⟨(runAll [.pushBack tI 1, .pushBack tI 2, .pushBack tI 3, .setRange none 0 tS [4, 5]] mk0).getD mk0,
    ⟨.default, mk0, [.pushBack tI 1, .pushBack tI 2, .pushBack tI 3, .setRange none 0 tS [4, 5]], rfl, ?_, ?_, by decide +kernel⟩, ?_⟩
  · simp [Along, Call.Defined, Call.at_]
  · simp [Along]
  · decide +kernel

/-! ### C56: failed calls -/

/-- A call that throws has changed nothing. -/
theorem C56_failed_call {s : St α} (h : Reachable s) (c : Call α) (hd : c.Defined (contents s)) (e : Err) (s' : St α)
    (he : c.run s = .err e s') : s' = s ∧ e = .outOfRange ∧ c.spec (contents s) = none := by
  have := call_spec h c hd
  split at this <;> rename_i hs
  · obtain ⟨r, s1, h1, -⟩ := this
    rw [h1] at he; cases he
  · rw [this] at he; cases he; exact ⟨rfl, rfl, hs⟩

example : Reachable demo ∧ (Call.erase 3 9 : Call Nat).Defined (contents demo) ∧ (Call.erase 3 9).run demo = .err .outOfRange demo :=
  ⟨demo_reachable, ⟨by simp [Call.at_], trivial⟩, by decide +kernel⟩

end Mdds.Mtv
