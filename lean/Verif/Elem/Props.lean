import Verif.Elem.StepOk

/-!
# C73: element blocks of multi_type_vector

The program may create, copy, clone, compare, change and delete element blocks of any registered classes, through the
dispatcher and through the functions of the classes.  `LegalRun` (Spec) says which calls are allowed.
-/
namespace Mdds.Elem
open Mdds

variable {V : Type}

/-- What a block shows: its class and its elements in order. -/
def World.shown (w : World V) (b : Nat) : Option (Nat × Outcome (List (Cell V))) :=
  (w.blks b).map fun x => (x.cls, x.store.toList)

/-- What it should show. -/
def Spec.shown (s : Spec V) (b : Nat) : Option (Nat × Outcome (List (Cell V))) :=
  (s.blks b).map fun x => (x.cls, .ok x.cells)

theorem Rep.shown {w : World V} {s : Spec V} (h : Rep w s) : w.shown = s.shown := by
  funext b
  simp only [World.shown, Spec.shown]
  cases hb : s.blks b with
  | none =>
    have := h.blks b
    rw [hb] at this
    cases hw : w.blks b with
    | none => rfl
    | some x => rw [hw] at this; cases this
  | some y =>
    obtain ⟨x, hw, r⟩ := h.get hb
    simp only [hw, Option.map_some, r.1, r.2.toList]

theorem rep_empty : Rep (World.empty : World V) Spec.empty := ⟨fun _ => .none, rfl, rfl, rfl⟩
theorem ok_empty (cfg : Cfg V) : Ok cfg Spec.empty := ⟨nofun, nofun⟩

theorem run_ok [DecidableEq V] {cfg : Cfg V} (hd : cfg.Distinct) {w : World V} {s : Spec V} (h : Rep w s) (ho : Ok cfg s)
    {p : List (Cmd V)} (hp : LegalRun cfg s p) :
    ∃ w', run cfg w p = .ok (w', (sRun cfg s p).2) ∧ Rep w' (sRun cfg s p).1 ∧ Ok cfg (sRun cfg s p).1 := by
  induction p generalizing w s with
  | nil => exact ⟨w, rfl, h, ho⟩
  | cons c cs ih =>
    obtain ⟨w1, e1, r1, o1⟩ := step_ok hd h ho hp.1
    obtain ⟨w2, e2, r2, o2⟩ := ih r1 o1 hp.2
    exact ⟨w2, by simp only [run, e1, e2, sRun], r2, o2⟩

theorem threw_same [DecidableEq V] {cfg : Cfg V} {s : Spec V} {c : Cmd V}
    (ha : (∃ e, (sStep cfg s c).2 = .threw e) ∨ (sStep cfg s c).2 = .threwUser) :
    (sStep cfg s c).1.blks = s.blks ∧ (sStep cfg s c).1.objs = s.objs := by
  revert ha
  cases c with
  | delete b => cases b <;> simp [sStep]
  | copy b f =>
    simp only [sStep, sCopy, Spec.dup]
    repeat' split
    all_goals first | exact fun _ => ⟨rfl, rfl⟩ | (intro ha; simp at ha)
  | clone b f =>
    simp only [sStep, sCopy, sClone, Spec.dup]
    repeat' split
    all_goals first | exact fun _ => ⟨rfl, rfl⟩ | (intro ha; simp at ha)
  | _ =>
    simp only [sStep]
    repeat' split
    all_goals first | exact fun _ => ⟨rfl, rfl⟩ | (intro ha; simp at ha)

/-- Numbers of blocks are below the next. -/
def Spec.Below (s : Spec V) : Prop := ∀ b y, s.blks b = some y → b < s.nextB

theorem Spec.Below.set {s : Spec V} (h : s.Below) (b : Nat) (l : List (Cell V)) : (s.set b l).Below := by
  intro i y hi
  simp only [Spec.set] at hi ⊢
  split at hi
  · rename_i e
    subst e
    cases hb : s.blks i with
    | none => rw [hb] at hi; simp at hi
    | some z => exact h i z hb
  · exact h i y hi

theorem Spec.Below.add {s : Spec V} (h : s.Below) (c : Nat) (l : List (Cell V)) : (s.add c l).Below := by
  intro i y hi
  simp only [Spec.add] at hi ⊢
  split at hi
  · omega
  · have := h i y hi; omega

theorem Spec.Below.copy {s : Spec V} (h : s.Below) (k : Class V) (x : SBlk V) (f : Option Nat) :
    (sCopy s k x f).1.Below := by
  simp only [sCopy, Spec.dup]
  repeat' split
  · exact h
  · exact h
  · exact h.add _ _
  · exact h
  · exact Spec.Below.add (s := s.alloc _) (fun b y hb => h b y hb) _ _

theorem Spec.Below.step [DecidableEq V] {cfg : Cfg V} {s : Spec V} (h : s.Below) (c : Cmd V) : (sStep cfg s c).1.Below := by
  cases c with
  | newObj v => exact fun b y hb => h b y hb
  | copy b f =>
    simp only [sStep]
    split
    · exact h.copy _ _ _
    · exact h
  | clone b f =>
    simp only [sStep]
    split
    · simp only [sClone, Spec.dup]
      repeat' split
      · exact h
      · exact Spec.Below.add (s := s.alloc _) (fun b y hb => h b y hb) _ _
      · exact fun b y hb => h b y hb
      · exact h.copy _ _ _
    · exact h
  | delete b =>
    cases b with
    | none => exact h
    | some b =>
      intro i y hi
      simp only [sStep] at hi ⊢
      split at hi
      · cases hi
      · exact h i y hi
  | swapValues b1 b2 p1 p2 n => exact (h.set _ _).set _ _
  | overwrite b p n =>
    simp only [sStep]
    split
    · exact h
    · exact fun b y hb => h b y hb
  | _ =>
    simp only [sStep]
    repeat' split
    all_goals first | exact h | exact h.set _ _ | exact h.add _ _

theorem below_run [DecidableEq V] {cfg : Cfg V} {s : Spec V} (h : s.Below) (p : List (Cmd V)) : (sRun cfg s p).1.Below := by
  induction p generalizing s with
  | nil => exact h
  | cons c cs ih => exact ih (h.step c)

theorem below_empty : (Spec.empty : Spec V).Below := nofun

/-- **C73 (partial).** Every legal program runs; it is told what the specification says, and in the end every block shows
what it should and exactly the objects exist that should.  The part left out is copying a managed block when the copy
constructor of an element throws: see `C73_copy_throws` and `C73_copy_leak_fails`. -/
theorem C73_blocks_partial [DecidableEq V] (cfg : Cfg V) (hd : cfg.Distinct) (p : List (Cmd V))
    (hp : LegalRun cfg Spec.empty p) :
    ∃ w, run cfg World.empty p = .ok (w, (sRun cfg Spec.empty p).2) ∧ w.shown = (sRun cfg Spec.empty p).1.shown ∧
      w.objs = (sRun cfg Spec.empty p).1.objs := by
  obtain ⟨w, e, r, _⟩ := run_ok hd rep_empty (ok_empty cfg) hp
  exact ⟨w, e, r.shown, r.objs⟩

/-- **C73, exceptions.** A legal call that throws changes no block and no object. -/
theorem C73_throw_keeps [DecidableEq V] (cfg : Cfg V) (hd : cfg.Distinct) (p : List (Cmd V))
    (hp : LegalRun cfg Spec.empty p) (w : World V) (as : List (Ans V)) (hw : run cfg World.empty p = .ok (w, as))
    (c : Cmd V) (hc : Legal cfg (sRun cfg Spec.empty p).1 c) (w' : World V) (a : Ans V)
    (hs : step cfg w c = .ok (w', a)) (ha : (∃ e, a = .threw e) ∨ a = .threwUser) :
    w'.shown = w.shown ∧ w'.objs = w.objs := by
  obtain ⟨w1, e, r, o⟩ := run_ok hd rep_empty (ok_empty cfg) hp
  rw [hw] at e; cases e
  obtain ⟨w2, e2, r2, _⟩ := step_ok hd r o hc
  rw [hs] at e2; cases e2
  rw [r2.shown, r2.objs, r.shown, r.objs]
  generalize (sRun cfg Spec.empty p).1 = s at *
  have key := threw_same ha
  exact ⟨by funext b; simp only [Spec.shown, key.1], key.2⟩

/-- The block `b` shows the cells `l` and is of a class of kind `k`. -/
def Shown (cfg : Cfg V) (s : Spec V) (b : Nat) (k : Class V) (l : List (Cell V)) : Prop :=
  ∃ c, s.blks b = some ⟨c, l⟩ ∧ cfg.classes[c]? = some k

/-- **C73, a copy that throws.** When the copy constructor of element `n` of a managed block throws, the caller gets the
exception, all blocks are as before, and `n` objects are left: the copies of the elements before. -/
theorem C73_copy_throws [DecidableEq V] (cfg : Cfg V) (hd : cfg.Distinct) (p : List (Cmd V))
    (hp : LegalRun cfg Spec.empty p) (b n : Nat) (k : Class V) (hk : k.kind = .managed) (l : List (Cell V))
    (hb : Shown cfg (sRun cfg Spec.empty p).1 b k l) (hl : (sRun cfg Spec.empty p).1.Live l) (hn : n < l.length) :
    ∃ w w', run cfg World.empty p = .ok (w, (sRun cfg Spec.empty p).2) ∧
      step cfg w (.copy b (some n)) = .ok (w', .threwUser) ∧
      step cfg w (.clone b (some n)) = .ok (w', .threwUser) ∧ w'.shown = w.shown ∧
      (valsOf w.objs l).length = l.length ∧
      ∀ o, w'.objs o = if w.nextO ≤ o ∧ o < w.nextO + n then (valsOf w.objs l)[o - w.nextO]? else w.objs o := by
  obtain ⟨w, e, r, ho⟩ := run_ok hd rep_empty (ok_empty cfg) hp
  obtain ⟨c, hb, hkc⟩ := hb
  obtain ⟨x, hw, rx⟩ := r.get hb
  have hkx : cfg.classes[x.cls]? = some k := by rw [rx.1, hkc]
  have hlive := liveW r ho hl
  have hm : copiesMade (some n) l.length = n := by simp [copiesMade]; omega
  have hcopy : copyBlk w k x (some n) = .ok (w.withObjs ((valsOf w.objs l).take n), .threwUser) := by
    simp only [copyBlk, hk, rx.2.toList, copyLoop_eq hlive, hm, hn, decide_true]
  have hv := valsOf_length hlive
  refine ⟨w, w.withObjs ((valsOf w.objs l).take n), e, ?_, ?_, rfl, hv, fun o => ?_⟩
  · simp only [step, dispatch_eq hd hw hkx, hcopy]
  · simp only [step, dispatch_eq hd hw hkx, cloneBlk, hk, hcopy]
  · simp only [World.withObjs, allocObjs, List.length_take, hv, Nat.min_eq_left (Nat.le_of_lt hn)]
    by_cases h1 : w.nextO ≤ o ∧ o < w.nextO + n
    · rw [if_pos h1, if_pos h1, List.getElem?_take, if_pos (by omega)]
    · rw [if_neg h1, if_neg h1]

theorem destroy_alloc {cfg : Cfg V} {s : Spec V} (ho : Ok cfg s) (vs : List V) :
    ((s.alloc vs).destroy (ptrs s.nextO vs.length)).objs = s.objs := by
  funext o
  simp only [Spec.destroy, Spec.alloc, allocObjs]
  by_cases h1 : s.nextO ≤ o ∧ o < s.nextO + vs.length
  · rw [if_pos (pointsTo_iff.2 (by simp only [ptrs, List.mem_map, List.mem_range]; exact ⟨o - s.nextO, by omega, by
      congr 2; omega⟩))]
    cases hso : s.objs o with
    | none => rfl
    | some v => have := ho.fresh o (by rw [hso]; rfl); omega
  · rw [if_neg, if_neg h1]
    rw [pointsTo_iff]
    simp only [ptrs, List.mem_map, List.mem_range]
    rintro ⟨i, hi, e⟩
    simp only [Cell.ptr.injEq, Option.some.injEq] at e
    omega

theorem ptrs_owned (s : Spec V) (vs : List V) : (s.alloc vs).Owned (ptrs s.nextO vs.length) := by
  refine ⟨fun c hc => ?_, ?_⟩
  · simp only [ptrs, List.mem_map, List.mem_range] at hc
    obtain ⟨i, hi, rfl⟩ := hc
    refine .inr ⟨_, rfl, ?_⟩
    simp only [Spec.alloc, allocObjs]
    rw [if_pos ⟨by omega, by omega⟩]
    simp [hi]
  · refine List.Nodup.filter _ ?_
    refine List.Nodup.map ?_ List.nodup_range
    intro a b e
    simp only [Cell.ptr.injEq, Option.some.injEq] at e
    omega

theorem valsOf_ptrs {objs : Nat → Option V} {n : Nat} {vs : List V} (h : ∀ i, i < vs.length → objs (n + i) = vs[i]?) :
    valsOf objs (ptrs n vs.length) = vs := by
  induction vs generalizing n with
  | nil => rfl
  | cons v vs ih =>
    have h0 := h 0 (by simp)
    rw [List.length_cons, ptrs_cons]
    have := ih (n := n + 1) (fun i hi => by
      have := h (i + 1) (by simp; omega)
      rw [Nat.add_assoc, Nat.add_comm 1 i, this]; simp)
    simp only [valsOf, List.filterMap_cons] at this ⊢
    simp at h0
    rw [h0]
    simp only [this]

theorem valsOf_alloc (objs : Nat → Option V) (n : Nat) (vs : List V) :
    valsOf (allocObjs objs n vs) (ptrs n vs.length) = vs := by
  refine valsOf_ptrs fun i hi => ?_
  simp only [allocObjs]
  rw [if_pos ⟨by omega, by omega⟩]
  congr 1; omega

/-- **C73, a copy owns its objects.** A copy of a managed block is a new block with new objects, of the same number and
with the same values; deleting the copy gives back the blocks and the objects from before. -/
theorem C73_copy_delete [DecidableEq V] (cfg : Cfg V) (hd : cfg.Distinct) (p : List (Cmd V))
    (hp : LegalRun cfg Spec.empty p) (b : Nat) (k : Class V) (hk : k.kind = .managed) (l : List (Cell V))
    (hb : Shown cfg (sRun cfg Spec.empty p).1 b k l) (hl : (sRun cfg Spec.empty p).1.Live l) :
    ∃ w w1 w2 n l', run cfg World.empty p = .ok (w, (sRun cfg Spec.empty p).2) ∧
      step cfg w (.copy b none) = .ok (w1, .num n) ∧ w.shown n = none ∧
      w1.shown n = (w.shown b).map (fun x => (x.1, .ok l')) ∧ valsOf w1.objs l' = valsOf w.objs l ∧
      l'.length = l.length ∧ (∀ o, pointsTo l' o → w.objs o = none) ∧
      step cfg w1 (.delete (some n)) = .ok (w2, .unit) ∧ w2.objs = w.objs ∧
      w2.shown = w.shown := by
  obtain ⟨w, e, r, ho⟩ := run_ok hd rep_empty (ok_empty cfg) hp
  obtain ⟨c, hb, hkc⟩ := hb
  have hwell := below_run (cfg := cfg) below_empty p
  generalize (sRun cfg Spec.empty p).1 = s at *
  have hnew : s.blks s.nextB = none := by
    cases h : s.blks s.nextB with
    | none => rfl
    | some y => exact absurd (hwell _ _ h) (Nat.lt_irrefl _)
  have hlegal : Legal cfg s (.copy b none) := ⟨_, k, hb, hkc, by simp [copyLegal, hk, hl]⟩
  obtain ⟨w1, e1, r1, o1⟩ := step_ok hd r ho hlegal
  have hv := valsOf_length (liveW r ho hl)
  have hsc : sStep cfg s (.copy b none) = s.dup ⟨c, l⟩ (s.vals l) := by
    simp [sStep, hb, Spec.cls, hkc, sCopy, hk]
  rw [hsc] at e1 r1 o1
  have hvs : (s.vals l).length = l.length := by rw [← hv, r.objs]; rfl
  have hblk : (s.dup ⟨c, l⟩ (s.vals l)).1.blks s.nextB = some ⟨c, ptrs s.nextO (s.vals l).length⟩ := by
    simp [Spec.dup, Spec.add, Spec.alloc]
  have hown := ptrs_owned s (s.vals l)
  have hlegal2 : Legal cfg (s.dup ⟨c, l⟩ (s.vals l)).1 (.delete (some s.nextB)) :=
    ⟨_, k, hblk, hkc, .inr hown⟩
  obtain ⟨w2, e2, r2, _⟩ := step_ok hd r1 o1 hlegal2
  refine ⟨w, w1, w2, s.nextB, ptrs s.nextO (s.vals l).length, e, e1, ?_, ?_, ?_, ?_, ?_, e2, ?_, ?_⟩
  · rw [r.shown]; simp only [Spec.shown, hnew, Option.map_none]
  · rw [r1.shown, r.shown]
    simp only [Spec.shown, hblk, hb, Option.map_some]
  · rw [r1.objs, r.objs]
    show valsOf (allocObjs s.objs s.nextO (s.vals l)) (ptrs s.nextO (s.vals l).length) = s.vals l
    exact valsOf_alloc _ _ _
  · simp [ptrs, hvs]
  · intro o hpo
    rw [pointsTo_iff] at hpo
    simp only [ptrs, List.mem_map, List.mem_range, Cell.ptr.injEq, Option.some.injEq] at hpo
    obtain ⟨i, hi, rfl⟩ := hpo
    rw [r.objs]
    cases hso : s.objs (s.nextO + i) with
    | none => rfl
    | some v => have := ho.fresh _ (by rw [hso]; rfl); omega
  · rw [r2.objs, r.objs, ← destroy_alloc ho (s.vals l)]
    simp only [sStep, cells_eq hblk]
    rfl
  · rw [r2.shown, r.shown]
    funext i
    by_cases hi : i = s.nextB
    · subst hi; simp [Spec.shown, sStep, hnew]
    · simp [Spec.shown, sStep, hi, Spec.destroy, Spec.dup, Spec.add, Spec.alloc]

theorem map_some_filterMap {l : List (Option V)} (h : l.all Option.isSome = true) : (l.filterMap id).map some = l := by
  induction l with
  | nil => rfl
  | cons a l ih =>
    simp only [List.all_cons, Bool.and_eq_true] at h
    obtain ⟨v, rfl⟩ := Option.isSome_iff_exists.1 h.1
    have := ih h.2
    simp at this ⊢
    exact this

/-- **C73, comparing a copy.** A copy of a plain block equals the block.  A copy of a managed block equals the block only
if both are empty: `equal_block` compares the pointers, and the copy has its own objects. -/
theorem C73_copy_equal [DecidableEq V] (cfg : Cfg V) (hd : cfg.Distinct) (p : List (Cmd V))
    (hp : LegalRun cfg Spec.empty p) (b : Nat) (k : Class V) (l : List (Cell V))
    (hb : Shown cfg (sRun cfg Spec.empty p).1 b k l)
    (hk : k.kind = .plain ∨ k.kind = .managed ∧ (sRun cfg Spec.empty p).1.Live l) :
    ∃ w w1 w2 n, run cfg World.empty p = .ok (w, (sRun cfg Spec.empty p).2) ∧
      step cfg w (.copy b none) = .ok (w1, .num n) ∧
      ∃ r, step cfg w1 (.equal b n) = .ok (w2, .bool r) ∧ (r = true ↔ k.kind = .plain ∨ l = []) := by
  obtain ⟨w, e, r, ho⟩ := run_ok hd rep_empty (ok_empty cfg) hp
  obtain ⟨c, hb, hkc⟩ := hb
  have hnot : ∀ f, k.kind ≠ .noncopyable f := by
    intro f h; rcases hk with h' | h' <;> simp [h] at h'
  have hwell := below_run (cfg := cfg) below_empty p
  generalize (sRun cfg Spec.empty p).1 = s at *
  have hbn : b ≠ s.nextB := Nat.ne_of_lt (hwell b _ hb)
  have hlegal : Legal cfg s (.copy b none) := ⟨_, k, hb, hkc, by
    rcases hk with h | h <;> simp [copyLegal, h]⟩
  obtain ⟨w1, e1, r1, o1⟩ := step_ok hd r ho hlegal
  have key : ∀ (t : Spec V) (l' : List (Cell V)), sStep cfg s (.copy b none) = (t, .num s.nextB) →
      t.blks b = some ⟨c, l⟩ → t.blks s.nextB = some ⟨c, l'⟩ → (l = l' ↔ k.kind = .plain ∨ l = []) →
      ∃ w w1 w2 n, run cfg World.empty p = .ok (w, (sRun cfg Spec.empty p).2) ∧
      step cfg w (.copy b none) = .ok (w1, .num n) ∧
      ∃ r, step cfg w1 (.equal b n) = .ok (w2, .bool r) ∧ (r = true ↔ k.kind = .plain ∨ l = []) := by
    intro t l' ht h1 h2 hiff
    rw [ht] at e1 r1 o1
    have hleg2 : Legal cfg t (.equal b s.nextB) := ⟨_, _, h1, h2, fun k' f hk' h => by
      simp only [hkc, Option.some.injEq] at hk'; subst hk'; exact absurd h (hnot f)⟩
    obtain ⟨w2, e2, r2, _⟩ := step_ok hd r1 o1 hleg2
    have : sStep cfg t (.equal b s.nextB) = (t, .bool (decide (l = l'))) := by
      obtain ⟨i, kd, dl⟩ := k
      simp only [sStep, h1, h2, ne_eq, not_true_eq_false, if_false, Spec.cls, Option.bind_some, hkc]
      cases kd with
      | noncopyable f => exact absurd rfl (hnot f)
      | _ => rfl
    rw [this] at e2
    exact ⟨w, w1, w2, s.nextB, e, e1, _, e2, by simpa using hiff⟩
  rcases hk with hk | ⟨hk, hl⟩
  · refine key (s.add c l) l ?_ ?_ ?_ (by simp [hk])
    · simp [sStep, hb, Spec.cls, hkc, sCopy, hk]
    · simp [Spec.add, hbn, hb]
    · simp [Spec.add]
  · have hvs : (s.vals l).length = l.length := by
      rw [← valsOf_length (liveW r ho hl), r.objs]; rfl
    refine key (s.dup ⟨c, l⟩ (s.vals l)).1 (ptrs s.nextO l.length) ?_ ?_ ?_ ?_
    · simp [sStep, hb, Spec.cls, hkc, sCopy, hk, Spec.dup]
    · simp [Spec.dup, Spec.add, Spec.alloc, hbn, hb]
    · simp [Spec.dup, Spec.add, Spec.alloc, hvs]
    · simp only [hk, reduceCtorEq, false_or]
      constructor
      · intro h
        cases l with
        | nil => rfl
        | cons a l =>
          rw [List.length_cons, ptrs_cons] at h
          obtain ⟨o, ho1, ho2⟩ := hl a (by simp)
          simp only [List.cons.injEq] at h
          rw [h.1] at ho1
          simp only [Cell.ptr.injEq, Option.some.injEq] at ho1
          have := ho.fresh o ho2
          omega
      · rintro rfl; rfl

/-- **C73, comparing a clone.** A clone of a noncopyable block equals the block if and only if every object equals its
clone. -/
theorem C73_clone_equal [DecidableEq V] (cfg : Cfg V) (hd : cfg.Distinct) (p : List (Cmd V))
    (hp : LegalRun cfg Spec.empty p) (b : Nat) (k : Class V) (l : List (Cell V))
    (hb : Shown cfg (sRun cfg Spec.empty p).1 b k l) (hl : (sRun cfg Spec.empty p).1.Live l)
    (f : List V → V → Option V) (hk : k.kind = .noncopyable (some f))
    (hf : ∀ q v, (f q v).isSome) :
    ∃ w w1 w2 n, run cfg World.empty p = .ok (w, (sRun cfg Spec.empty p).2) ∧
      step cfg w (.clone b none) = .ok (w1, .num n) ∧
      step cfg w1 (.equal b n) = .ok (w2, .bool (decide (clones f (valsOf w.objs l) = (valsOf w.objs l).map some))) := by
  obtain ⟨w, e, r, ho⟩ := run_ok hd rep_empty (ok_empty cfg) hp
  obtain ⟨c, hb, hkc⟩ := hb
  have hwell := below_run (cfg := cfg) below_empty p
  generalize (sRun cfg Spec.empty p).1 = s at *
  have hbn : b ≠ s.nextB := Nat.ne_of_lt (hwell b _ hb)
  have hlegal : Legal cfg s (.clone b none) := ⟨_, k, hb, hkc, by simp [copyLegal, hk], fun _ _ => hl⟩
  obtain ⟨w1, e1, r1, o1⟩ := step_ok hd r ho hlegal
  have hall : (clones f (s.vals l)).all Option.isSome = true := by
    simp only [clones, List.all_eq_true, List.mem_map, List.mem_range]
    rintro _ ⟨i, hi, rfl⟩
    rw [List.getElem?_eq_getElem hi]
    exact hf _ _
  have hlen : ((clones f (s.vals l)).filterMap id).length = l.length := by
    rw [filterMap_isSome_length _ (by simpa only [List.all_eq_true] using hall), ← valsOf_length (liveW r ho hl), r.objs]
    simp [clones, Spec.vals]
  have hsc : sStep cfg s (.clone b none) = s.dup ⟨c, l⟩ ((clones f (s.vals l)).filterMap id) := by
    simp only [sStep, hb, Spec.cls, Option.bind_some, hkc, sClone, hk]
    rw [if_pos hall]
  rw [hsc] at e1 r1 o1
  have h1 : (s.dup ⟨c, l⟩ ((clones f (s.vals l)).filterMap id)).1.blks b = some ⟨c, l⟩ := by
    simp [Spec.dup, Spec.add, Spec.alloc, hbn, hb]
  have h2 : (s.dup ⟨c, l⟩ ((clones f (s.vals l)).filterMap id)).1.blks s.nextB = some ⟨c, ptrs s.nextO l.length⟩ := by
    simp only [Spec.dup, Spec.add, Spec.alloc, hlen, if_true]
  have hlive1 : (s.dup ⟨c, l⟩ ((clones f (s.vals l)).filterMap id)).1.Live l := by
    intro a ha
    obtain ⟨o, h1, h2⟩ := hl a ha
    refine ⟨o, h1, ?_⟩
    have := ho.fresh o h2
    simp only [Spec.dup, Spec.add, Spec.alloc, allocObjs]
    rw [if_neg (by omega)]; exact h2
  have hlive2 : (s.dup ⟨c, l⟩ ((clones f (s.vals l)).filterMap id)).1.Live (ptrs s.nextO l.length) := by
    intro a ha
    rw [← hlen] at ha
    rcases (ptrs_owned s ((clones f (s.vals l)).filterMap id)).1 a ha with h | h
    · rw [h] at ha; simp [ptrs] at ha
    · exact h
  have hleg2 : Legal cfg (s.dup ⟨c, l⟩ ((clones f (s.vals l)).filterMap id)).1 (.equal b s.nextB) :=
    ⟨_, _, h1, h2, fun _ _ _ _ => ⟨hlive1, hlive2⟩⟩
  obtain ⟨w2, e2, r2, _⟩ := step_ok hd r1 o1 hleg2
  refine ⟨w, w1, w2, s.nextB, e, e1, ?_⟩
  rw [e2]
  congr 2
  obtain ⟨i, kd, dl⟩ := k
  simp only at hk
  subst hk
  simp only [sStep, h1, h2, ne_eq, not_true_eq_false, if_false, Spec.cls, Option.bind_some, hkc]
  congr 1
  have ev1 : Spec.vals (s.dup ⟨c, l⟩ ((clones f (s.vals l)).filterMap id)).1 l = s.vals l := by
    refine filterMap_congr_mem fun a ha => ?_
    obtain ⟨o, rfl, h2⟩ := hl a ha
    have := ho.fresh o h2
    simp only [Spec.dup, Spec.add, Spec.alloc, allocObjs]
    rw [if_neg (by omega)]
  have ev2 : Spec.vals (s.dup ⟨c, l⟩ ((clones f (s.vals l)).filterMap id)).1 (ptrs s.nextO l.length) =
      (clones f (s.vals l)).filterMap id := by
    rw [← hlen]
    exact valsOf_alloc _ _ _
  rw [ev1, ev2, r.objs]
  show decide (s.vals l = _) = decide (clones f (s.vals l) = (s.vals l).map some)
  rw [decide_eq_decide]
  constructor
  · intro h
    rw [← map_some_filterMap hall, ← h]
  · intro h
    rw [h]
    simp

/-! ### What the code does not do -/

/-- Three classes: plain, managed and plain with `delayed_delete_vector`, and a noncopyable one. -/
def cfgEx : Cfg Nat := ⟨[⟨10, .plain, false⟩, ⟨11, .managed, false⟩, ⟨12, .plain, true⟩,
  ⟨13, .noncopyable (some fun q v => if q.length < 2 then some v else none), true⟩, ⟨14, .managed, true⟩], 0, fun _ => 0⟩

theorem cfgEx_distinct : cfgEx.Distinct := by unfold Cfg.Distinct; decide

/-- **C73_copy_leak_fails.** A managed block of two objects is copied and the copy constructor of the second throws: no
block was added, but there is one object more than before, and no block points to it. -/
theorem C73_copy_leak_fails : ∃ (p : List (Cmd Nat)) (w w' : World Nat) (as : List (Ans Nat)),
    run cfgEx World.empty p = .ok (w, as) ∧ step cfgEx w (.copy 0 (some 1)) = .ok (w', .threwUser) ∧
    w'.shown = w.shown ∧ w.objs 2 = none ∧ w'.objs 2 = some 7 ∧ w'.nextB = 1 ∧
    w'.shown 0 = some (1, .ok [.ptr (some 0), .ptr (some 1)]) := by
  refine ⟨[.newObj 7, .newObj 8, .createFrom 1 [.ptr (some 0), .ptr (some 1)]], _, _, _, rfl, rfl, rfl, rfl, rfl, rfl, rfl⟩

/-- **C73_copy_equal_fails.** A managed block and its copy, with the same values, are said to be different. -/
theorem C73_copy_equal_fails : ∃ (p : List (Cmd Nat)) (w w1 w2 : World Nat) (as : List (Ans Nat)) (l l' : List (Cell Nat)),
    run cfgEx World.empty p = .ok (w, as) ∧ step cfgEx w (.copy 0 none) = .ok (w1, .num 1) ∧
    w1.shown 0 = some (1, .ok l) ∧ w1.shown 1 = some (1, .ok l') ∧ valsOf w1.objs l = valsOf w1.objs l' ∧
    valsOf w1.objs l = [7] ∧ step cfgEx w1 (.equal 0 1) = .ok (w2, .bool false) := by
  refine ⟨[.newObj 7, .createFrom 1 [.ptr (some 0)]], _, _, _, _, _, _, rfl, rfl, rfl, rfl, rfl, rfl, rfl⟩

/-- **C73_copy_hidden_fails.** Erasing from the front of a `delayed_delete_vector` block keeps the erased element, and a
copy of the block copies it too: the block shows one element, but the second copy may throw. -/
theorem C73_copy_hidden_fails : ∃ (p : List (Cmd Nat)) (w : World Nat) (as : List (Ans Nat)),
    run cfgEx World.empty p = .ok (w, as) ∧ w.shown 0 = some (2, .ok [.val 6]) ∧
    step cfgEx w (.copy 0 (some 1)) = .ok (w, .threwUser) := by
  refine ⟨[.createFrom 2 [.val 5, .val 6], .erase 0 0], _, _, rfl, rfl, rfl⟩

/-- **C73_copy_null_fails.** A managed block with null pointers, as `create_new_block` makes it, cannot be copied: the
null pointer is followed. -/
theorem C73_copy_null_fails : ∃ (w : World Nat), step cfgEx World.empty (.create 11 1) = .ok (w, .num 0) ∧
    w.shown 0 = some (1, .ok [.ptr none]) ∧ step cfgEx w (.copy 0 none) = .ub := by
  refine ⟨_, rfl, rfl, rfl⟩

/-- **C73_append_self_fails.** A block cannot be appended to itself. -/
theorem C73_append_self_fails : ∃ (w : World Nat), step cfgEx World.empty (.createFrom 0 [.val 1]) = .ok (w, .num 0) ∧
    step cfgEx w (.appendBlock 0 0) = .ub := by
  refine ⟨_, rfl, rfl⟩

/-- **C73, `at` of a `delayed_delete_vector`.** With a `size_type` of 64 bits `at` does what it should for a position that
does not wrap. -/
theorem C73_at64_partial (d : Ddv.DDV α) (pos : Nat) (h : pos + d.off < 2 ^ 64) : at64 d pos = Ddv.at_ d pos := by
  simp only [at64, Ddv.at_, Nat.mod_eq_of_lt h]
  cases d.vec[pos + d.off]? <;> rfl

/-- **C73_at_wrap_fails.** After erasing from the front there are positions past the end for which `at` does not throw but
gives an erased element. -/
theorem C73_at_wrap_fails (d : Ddv.DDV α) (i : Nat) (hi : i < d.off) (h : d.off ≤ d.vec.length)
    (hs : d.vec.length < 2 ^ 64) :
    ∃ pos x, pos < 2 ^ 64 ∧ d.vec.length - d.off ≤ pos ∧ d.vec[i]? = some x ∧ at64 d pos = .ok x := by
  refine ⟨2 ^ 64 - d.off + i, d.vec[i], by omega, by omega, by simp, ?_⟩
  have : (2 ^ 64 - d.off + i + d.off) % 2 ^ 64 = i := by
    rw [show 2 ^ 64 - d.off + i + d.off = i + 2 ^ 64 by omega, Nat.add_mod_right, Nat.mod_eq_of_lt (by omega)]
  simp only [at64, this]
  rw [List.getElem?_eq_getElem (by omega)]

/-! ### The hypotheses are met -/

/-- Objects, a managed block with two of them, a `delayed_delete_vector` block that loses its first element and gets
others, its copy, comparison, swap, and deletion. -/
def progEx : List (Cmd Nat) :=
  [.newObj 7, .newObj 8, .createFrom 4 [.ptr (some 0), .ptr (some 1)], .copy 0 none, .create 12 3, .set 2 2 1 (.val 5),
   .erase 2 0, .pushMany 2 2 [.val 6, .val 9], .copy 2 none, .equal 2 3,
   .swapValues 2 3 0 2 2, .delete (some 1), .valuesRev 2 2, .at_ 2 2 9]

theorem live_ex {s : Spec Nat} {l : List (Cell Nat)}
    (h : (l.all fun c => match c with | .ptr (some o) => (s.objs o).isSome | _ => false) = true) : s.Live l := by
  intro c hc
  have := List.all_eq_true.1 h c hc
  cases c with
  | val v => cases this
  | ptr o =>
    cases o with
    | none => cases this
    | some o => exact ⟨o, rfl, this⟩

theorem owned_ex {s : Spec Nat} {l : List (Cell Nat)} (h : s.Live l) (hn : l.Nodup) : s.Owned l :=
  ⟨fun c hc => .inr (h c hc), hn.filter _⟩

theorem progEx_legal : LegalRun cfgEx Spec.empty progEx := by
  refine ⟨trivial, trivial, ⟨_, rfl, rfl⟩, ⟨_, _, rfl, rfl, live_ex rfl, nofun⟩, trivial, ⟨⟨rfl, _, rfl, rfl⟩, by decide⟩,
    ⟨rfl, by decide⟩, ⟨rfl, _, rfl, rfl⟩, ⟨_, _, rfl, rfl, nofun⟩, ⟨_, _, rfl, rfl, ?_⟩, ⟨⟨_, _, rfl, rfl, rfl⟩, by decide, by decide, by decide⟩,
    ⟨_, _, rfl, rfl, .inr (owned_ex (live_ex rfl) (by decide))⟩, ⟨rfl, _, rfl, rfl⟩, ⟨rfl, _, rfl, rfl⟩, trivial⟩
  intro k f hk hf
  cases hk
  cases hf

example : (sRun cfgEx Spec.empty progEx).2 = [.num 0, .num 1, .num 0, .num 1, .num 2, .unit, .unit, .unit, .num 3,
    .bool true, .unit, .unit, .cells [.val 9, .val 6, .val 9, .val 6], .threw .outOfRange] := by decide

example : ∃ w, run cfgEx World.empty progEx = .ok (w, (sRun cfgEx Spec.empty progEx).2) ∧
    w.shown = (sRun cfgEx Spec.empty progEx).1.shown ∧ w.objs = (sRun cfgEx Spec.empty progEx).1.objs :=
  C73_blocks_partial cfgEx cfgEx_distinct progEx progEx_legal

/-- Three objects in a managed and in a noncopyable block; the third clone throws. -/
def progEx2 : List (Cmd Nat) :=
  [.newObj 7, .newObj 8, .newObj 9, .createFrom 1 [.ptr (some 0), .ptr (some 1)],
   .createFrom 3 [.ptr (some 0), .ptr (some 1), .ptr (some 2)]]

theorem progEx2_legal : LegalRun cfgEx Spec.empty progEx2 :=
  ⟨trivial, trivial, trivial, ⟨_, rfl, rfl⟩, ⟨_, rfl, rfl⟩, trivial⟩

example : ∃ w as, run cfgEx World.empty progEx2 = .ok (w, as) ∧
    Legal cfgEx (sRun cfgEx Spec.empty progEx2).1 (.clone 1 none) ∧
    ∃ w', step cfgEx w (.clone 1 none) = .ok (w', .threwUser) ∧ w'.nextO = w.nextO + 2 :=
  ⟨_, _, rfl, ⟨_, _, rfl, rfl, trivial, fun _ _ => live_ex rfl⟩, _, rfl, rfl⟩

example : Shown cfgEx (sRun cfgEx Spec.empty progEx2).1 0 ⟨11, .managed, false⟩ [.ptr (some 0), .ptr (some 1)] ∧
    (sRun cfgEx Spec.empty progEx2).1.Live [.ptr (some 0), .ptr (some 1)] :=
  ⟨⟨1, rfl, rfl⟩, live_ex rfl⟩

/-- A noncopyable class whose clones never throw; the second clone differs. -/
def cfgEx2 : Cfg Nat := ⟨[⟨13, .noncopyable (some fun q v => some (v + q.length)), true⟩], 0, fun _ => 0⟩

example : cfgEx2.Distinct ∧
    LegalRun cfgEx2 Spec.empty [.newObj 7, .newObj 8, .createFrom 0 [.ptr (some 0), .ptr (some 1)]] ∧
    (sRun cfgEx2 Spec.empty [.newObj 7, .newObj 8, .createFrom 0 [.ptr (some 0), .ptr (some 1)]]).1.Live
      [.ptr (some 0), .ptr (some 1)] :=
  ⟨by unfold Cfg.Distinct; decide, ⟨trivial, trivial, ⟨_, rfl, rfl⟩, trivial⟩, live_ex rfl⟩

example : ∃ d : Ddv.DDV Nat, 0 < d.off ∧ d.off ≤ d.vec.length ∧ at64 d (2 ^ 64 - 1) = .ok 5 :=
  ⟨⟨[5, 6], 1⟩, by decide, by decide, by decide⟩

end Mdds.Elem
