import Verif.Quad.HeapStep2
import Verif.Quad.HeapProps
import Verif.Quad.NoUB
/-!
Memory safety of `point_quad_tree` (C65) for all programs: containers with trees of any shape, wrong parent pointers and
lost nodes included.
-/
namespace Mdds.Quad

open AT

variable {V : Type}

/-! ### Specification -/

/-- Effect of a call on the contents, or the exception it throws. -/
def Call.sem (S : Trees V) : Call V → Outcome (Trees V)
  | .remove i x y => ((S i).elim (.ok S) fun t => (removePt t x y).bind fun u => .ok (setVar S i (some u)))
  | c => .ok (c.spec S)

/-- The contents after a program, or the first exception. -/
def semRun (S : Trees V) : List (Call V) → Outcome (Trees V)
  | [] => .ok S
  | c :: l => (c.sem S).bind fun S => semRun S l

/-- Whether a call uses names as a C++ program can: only containers that exist, and new names for new ones. `U` says which names are
in use. -/
def Call.fits (U : Nat → Bool) : Call V → Bool
  | .make i => !U i
  | .copy i j => !U i && U j
  | .insert i _ _ _ | .remove i _ _ | .clear i | .destroy i => U i
  | .assign i j | .swap i j => U i && U j

/-- The names in use after a call. -/
def Call.uses (U : Nat → Bool) : Call V → Nat → Bool
  | .make i | .copy i _ => setVar U i true
  | .destroy i => setVar U i false
  | _ => U

/-- A whole program. -/
def fitsAll (U : Nat → Bool) : List (Call V) → Bool
  | [] => true
  | c :: l => c.fits U && fitsAll (c.uses U) l

/-- The names in use after a program. -/
def usesAll (U : Nat → Bool) : List (Call V) → Nat → Bool
  | [] => U
  | c :: l => usesAll (c.uses U) l

/-- Exchange of two names. -/
def swapped (i j k : Nat) : Nat := if k = j then i else if k = i then j else k

/-- Where the tree of container `i` is after a call, if none of its nodes is taken away: a call that removes from, clears, assigns to or
destroys the container ends this. -/
def Call.follow (i : Nat) : Call V → Option Nat
  | .remove k _ _ | .clear k | .assign k _ | .destroy k => if k = i then none else some i
  | .swap j k => some (swapped j k i)
  | _ => some i

/-- The same for a program. -/
def followAll (i : Nat) : List (Call V) → Option Nat
  | [] => some i
  | c :: l => (c.follow i).bind fun j => followAll j l

/-! ### Invariant -/

/-- The nodes a name owns (none if it is not in use). -/
def own (o : Option (AT V)) : AT V := o.getD nil

/-- The nodes in the containers. -/
def inAny (g : Nat → Option (AT V)) (b : Nat) : Prop := ∃ i, 0 < (own (g i)).cnt b

open Classical in
/-- The pointers the containers hold. -/
noncomputable def heldBy (g : Nat → Option (AT V)) (b : Nat) : Nat := if ∃ i, (own (g i)).root = some b then 1 else 0

/-- The containers own disjoint trees; all counts are right. -/
structure GInv (w : World V) (S : Trees V) (g : Nat → Option (AT V)) : Prop where
  var : ∀ i, w.var i = (g i).map root
  spec : ∀ i, S i = (g i).map tree
  wf : ∀ i t, S i = some t → WF t
  rc : RC w.mem (heldBy g)
  sh : ∀ i, Sh (inAny g) w.mem (own (g i))
  lk : ∀ i, Lk (inAny g) w.mem none (own (g i))
  one : ∀ i b, (own (g i)).cnt b ≤ 1
  apart : ∀ i j b, i ≠ j → 0 < (own (g i)).cnt b → (own (g j)).cnt b = 0
  clean : Clean (inAny g) w.mem

theorem own_set (g : Nat → Option (AT V)) (i j : Nat) (o : Option (AT V)) : own (setVar g i o j) = if j = i then own o else own (g j) := by
  unfold setVar; split <;> rfl

/-- Pointers held by a container and by the others. -/
theorem heldBy_split {g : Nat → Option (AT V)} (i : Nat) (o : Option (AT V)) (h : ∀ j b, j ≠ i → 0 < (own o).cnt b → (own (g j)).cnt b = 0) :
    heldBy (setVar g i o) = hold (heldBy (setVar g i none)) (own o).root := by
  funext b
  simp only [heldBy, hold, leads]
  by_cases h1 : (own o).root = some b
  · have h2 : ¬ ∃ j, (own (setVar g i none j)).root = some b := by
      rintro ⟨j, hj⟩
      rw [own_set] at hj
      split at hj
      · cases hj
      · next e =>
        have := h j b e (root_pos h1)
        have := root_pos hj
        omega
    rw [if_pos ⟨i, by rw [own_set, if_pos rfl]; exact h1⟩, if_neg h2, if_pos h1]
  · rw [if_neg h1]
    have : (∃ j, (own (setVar g i o j)).root = some b) ↔ ∃ j, (own (setVar g i none j)).root = some b := by
      constructor
      · rintro ⟨j, hj⟩
        rw [own_set] at hj
        by_cases e : j = i
        · rw [if_pos e] at hj; exact absurd hj h1
        · rw [if_neg e] at hj; exact ⟨j, by rw [own_set, if_neg e]; exact hj⟩
      · rintro ⟨j, hj⟩
        rw [own_set] at hj
        by_cases e : j = i
        · rw [if_pos e] at hj; cases hj
        · rw [if_neg e] at hj; exact ⟨j, by rw [own_set, if_neg e]; exact hj⟩
    by_cases e : ∃ j, (own (setVar g i none j)).root = some b
    · rw [if_pos e, if_pos (this.2 e)]
    · rw [if_neg e, if_neg (fun h => e (this.1 h))]

theorem setVar_self {α : Type} (f : Nat → α) (i : Nat) : setVar f i (f i) = f := by
  funext j; unfold setVar; split
  · next e => rw [e]
  · rfl

theorem GInv.rcAt {w : World V} {S : Trees V} {g : Nat → Option (AT V)} (h : GInv w S g) (i : Nat) :
    RC w.mem (hold (heldBy (setVar g i none)) (own (g i)).root) := by
  have := heldBy_split (g := g) i (g i) (fun j b e hb => h.apart i j b (Ne.symm e) hb)
  rw [setVar_self] at this
  rw [← this]; exact h.rc

theorem GInv.lt {w : World V} {S : Trees V} {g : Nat → Option (AT V)} (h : GInv w S g) (b : Nat) (hb : inAny g b) : b < w.mem.next := by
  obtain ⟨i, hi⟩ := hb
  exact (h.sh i).lt h.rc hi

theorem GInv.step {w : World V} {S : Trees V} {g : Nat → Option (AT V)} (h : GInv w S g) (i : Nat) (o : Option (AT V)) {m' : Mem V} {I' : Nat → Prop}
    (hw : WF (own o).tree) (hs : CStep (inAny g) w.mem (heldBy (setVar g i none)) (own (g i)).cnt m' (own o) I') :
    GInv ⟨m', setVar w.var i (o.map root)⟩ (setVar S i (o.map tree)) (setVar g i o) := by
  have hap : ∀ j b, j ≠ i → 0 < (own o).cnt b → (own (g j)).cnt b = 0 := by
    intro j b e hb
    by_contra hn
    have hn : 0 < (own (g j)).cnt b := by omega
    rcases hs.new b hb with h1 | h1
    · have := h.apart i j b (Ne.symm e) h1; omega
    · have := h.lt b ⟨j, hn⟩; omega
  have hI : I' = inAny (setVar g i o) := by
    funext b
    apply propext
    rw [hs.inI b]
    constructor
    · rintro (⟨⟨j, hj⟩, h0⟩ | hb)
      · have e : j ≠ i := fun e => by subst e; omega
        exact ⟨j, by rw [own_set, if_neg e]; exact hj⟩
      · exact ⟨i, by rw [own_set, if_pos rfl]; exact hb⟩
    · rintro ⟨j, hj⟩
      rw [own_set] at hj
      split at hj
      · exact .inr hj
      · next e => exact .inl ⟨⟨j, hj⟩, h.apart j i b e hj⟩
  subst hI
  have hoth : ∀ j, j ≠ i → Sh (inAny (setVar g i o)) m' (own (g j)) ∧ Lk (inAny (setVar g i o)) m' none (own (g j)) := by
    intro j e
    refine hs.oth (own (g j)) none (h.sh j) (h.lk j) (fun b hb => h.apart j i b e hb) (fun a ha => ?_)
    have : ∃ k, (own (setVar g i none k)).root = some a := ⟨j, by rw [own_set, if_neg e]; exact ha⟩
    simp only [heldBy, if_pos this]; omega
  refine ⟨fun j => map_setVar root g w.var i o h.var j, fun j => map_setVar tree g S i o h.spec j, fun j t ht => ?_, ?_, fun j => ?_, fun j => ?_, fun j b => ?_,
    fun j k b e hb => ?_, hs.clean⟩
  · by_cases e : j = i
    · subst e
      rw [setVar_same] at ht
      cases o with
      | none => cases ht
      | some u => cases ht; exact hw
    · rw [setVar_ne _ _ e] at ht
      exact h.wf j t ht
  · rw [heldBy_split i o hap]; exact hs.rc
  · rw [own_set]; split
    · exact hs.sh
    · next e => exact (hoth j e).1
  · rw [own_set]; split
    · exact hs.lk
    · next e => exact (hoth j e).2
  · rw [own_set]; split
    · exact hs.one b
    · exact h.one j b
  · rw [own_set] at hb ⊢
    by_cases e1 : j = i
    · rw [if_pos e1] at hb
      have e2 : k ≠ i := fun e2 => e (e1.trans e2.symm)
      rw [if_neg e2]
      exact hap k b e2 hb
    · rw [if_neg e1] at hb
      by_cases e2 : k = i
      · rw [if_pos e2]
        by_contra hn
        have := hap j b e1 (by omega); omega
      · rw [if_neg e2]; exact h.apart j k b e hb

theorem GInv.start : GInv (World.start : World V) (fun _ => none) (fun _ => none) := by
  refine ⟨fun _ => rfl, fun _ => rfl, fun _ _ h => (nomatch h), ⟨fun _ _ => rfl, fun a => ?_⟩, fun _ => trivial, fun _ => trivial, fun _ _ => Nat.zero_le _, fun _ _ _ _ _ => rfl, fun b c q k _ hc => (nomatch hc)⟩
  have : ¬ ∃ i : Nat, (own (none : Option (AT V))).root = some a := fun ⟨_, h⟩ => nomatch h
  simp only [heldBy, if_neg this]
  rfl

/-- The containers in use are those with a name. -/
def Named (U : Nat → Bool) (S : Trees V) : Prop := ∀ i, U i = (S i).isSome

theorem GInv.root {w : World V} {S : Trees V} {g : Nat → Option (AT V)} (h : GInv w S g) {U : Nat → Bool} (hU : Named U S) {i : Nat} (hi : U i = true) :
    ∃ t, g i = some t ∧ S i = some t.tree ∧ w.root i = .ok t.root := by
  have h1 := h.spec i
  rw [hU i] at hi
  cases hg : g i with
  | none => rw [h1, hg] at hi; cases hi
  | some t =>
    refine ⟨t, rfl, by rw [h1, hg]; rfl, ?_⟩
    simp [World.root, h.var i, hg]

theorem GInv.free {w : World V} {S : Trees V} {g : Nat → Option (AT V)} (h : GInv w S g) {U : Nat → Bool} (hU : Named U S) {i : Nat} (hi : U i = false) :
    g i = none := by
  have h1 := h.spec i
  rw [hU i] at hi
  cases hg : g i with
  | none => rfl
  | some t => rw [h1, hg] at hi; cases hi

theorem Named.set {U : Nat → Bool} {S : Trees V} (hU : Named U S) (i : Nat) (o : Option (Tree V)) : Named (setVar U i o.isSome) (setVar S i o) := by
  intro j; unfold setVar; split
  · rfl
  · exact hU j

theorem Named.keep {U : Nat → Bool} {S : Trees V} (hU : Named U S) {i : Nat} (hi : U i = true) (t : Tree V) : Named U (setVar S i (some t)) := by
  have := hU.set i (some t)
  rw [Option.isSome_some, ← hi, setVar_self] at this
  exact this

theorem wf_insertAll (l : List (Pt V)) : ∀ {t : Tree V}, WF t → WF (insertAll t l) := by
  induction l with
  | nil => intro t h; exact h
  | cons p l ih => intro t h; exact ih (wf_insert h p.x p.y p.d)

/-- A container that is not in use or empty gets a copy of the data of another. -/
theorem GInv.copyTo {w : World V} {S : Trees V} {g : Nat → Option (AT V)} (h : GInv w S g) {i : Nat} (hi : own (g i) = nil) (l : List (Pt V)) :
    ∃ m' t', insertAllH l none w.mem = .ok (t'.root, m') ∧ t'.tree = insertAll .nil l ∧
      GInv ⟨m', setVar w.var i (some t'.root)⟩ (setVar S i (some t'.tree)) (setVar g i (some t')) := by
  have hr := h.rcAt i
  rw [hi] at hr
  obtain ⟨m', t', I', e1, e2, s⟩ := insertAllH_any l hr h.clean (T := nil) trivial trivial (fun _ => Nat.zero_le _) (fun b hb => absurd hb (by simp [AT.cnt])) h.lt
  refine ⟨m', t', e1, e2, h.step i (some t') ?_ (by rw [hi]; exact s)⟩
  show WF t'.tree
  rw [e2]; exact wf_insertAll l trivial

theorem GInv.clear {w : World V} {S : Trees V} {g : Nat → Option (AT V)} (h : GInv w S g) {i : Nat} {t : AT V} (ht : g i = some t) (o : Option (AT V)) (ho : own o = nil) :
    ∃ m', clearH t.root w.mem = .ok m' ∧ GInv ⟨m', setVar w.var i (o.map AT.root)⟩ (setVar S i (o.map tree)) (setVar g i o) := by
  have hr := h.rcAt i
  have hs := h.sh i
  have h1 := h.one i
  rw [show own (g i) = t by rw [ht]; rfl] at hr hs h1
  obtain ⟨m', e, s⟩ := clearH_any hr h.clean hs h1
  exact ⟨m', e, h.step i o (by rw [ho]; trivial) (by rw [ho, ht]; exact s)⟩

theorem setVar_twice {α : Type} (f : Nat → α) (i : Nat) (x z : α) : setVar (setVar f i x) i z = setVar f i z := by
  funext k; unfold setVar; split <;> rfl

/-- Exchanging two names. -/
theorem GInv.rename {w : World V} {S : Trees V} {g : Nat → Option (AT V)} (h : GInv w S g) (s : Nat → Nat) (hs : ∀ k, s (s k) = k) :
    GInv ⟨w.mem, fun k => w.var (s k)⟩ (fun k => S (s k)) (fun k => g (s k)) := by
  have hI : inAny (fun k => g (s k)) = inAny g := by
    funext b
    apply propext
    exact ⟨fun ⟨i, hi⟩ => ⟨s i, hi⟩, fun ⟨i, hi⟩ => ⟨s i, by dsimp only; rw [hs]; exact hi⟩⟩
  have hH : heldBy (fun k => g (s k)) = heldBy g := by
    funext b
    have : (∃ i, (own (g (s i))).root = some b) ↔ ∃ i, (own (g i)).root = some b :=
      ⟨fun ⟨i, hi⟩ => ⟨s i, hi⟩, fun ⟨i, hi⟩ => ⟨s i, by rw [hs]; exact hi⟩⟩
    simp only [heldBy]
    by_cases e : ∃ i, (own (g i)).root = some b
    · rw [if_pos e, if_pos (this.2 e)]
    · rw [if_neg e, if_neg (fun h => e (this.1 h))]
  refine ⟨fun i => h.var _, fun i => h.spec _, fun i => h.wf _, by rw [hH]; exact h.rc, fun i => by rw [hI]; exact h.sh _, fun i => by rw [hI]; exact h.lk _, fun i => h.one _,
    fun i j b e => h.apart _ _ b (fun e' => e ?_), by rw [hI]; exact h.clean⟩
  rw [← hs i, e', hs]

theorem swapped_swapped (i j k : Nat) : swapped i j (swapped i j k) = k := by
  simp only [swapped]
  split <;> split <;> (try split) <;> omega

theorem setVar_swapped {α : Type} (f : Nat → α) (i j : Nat) : setVar (setVar f i (f j)) j (f i) = fun k => f (swapped i j k) := by
  funext k
  simp only [setVar, swapped]
  by_cases h1 : k = j
  · simp [h1]
  · by_cases h2 : k = i
    · subst h2; simp [h1]
    · simp [h1, h2]

/-- Nodes a call must not touch stay as they are. -/
def Follows (c : Call V) (g g' : Nat → Option (AT V)) : Prop := ∀ i j, c.follow i = some j → Kept (own (g i)) (own (g' j))

theorem follows_set {c : Call V} {g : Nat → Option (AT V)} {i : Nat} {o : Option (AT V)} (hj : ∀ k j, c.follow k = some j → j = k)
    (h : ∀ j, c.follow i = some j → Kept (own (g i)) (own o)) : Follows c g (setVar g i o) := by
  intro k j hk
  have := hj k j hk
  subst this
  rw [own_set]
  split
  · next e => subst e; exact h _ hk
  · exact Kept.refl _

theorem follow_not {i k j : Nat} (h : (if k = i then none else some i) = some j) : j = i ∧ k ≠ i := by
  split at h
  · cases h
  · next e => cases h; exact ⟨rfl, e⟩

/-- One call keeps the invariant and does what the specification says; or it throws what the specification throws. -/
theorem GInv.run {w : World V} {S : Trees V} {g : Nat → Option (AT V)} (h : GInv w S g) {U : Nat → Bool} (hU : Named U S) (c : Call V) (hl : c.fits U = true) :
    c.sem S ≠ .ub ∧ Ref (c.run w) (c.sem S) fun w' S' => Named (c.uses U) S' ∧ ∃ g', GInv w' S' g' ∧ Follows c g g' := by
  have hok : ∀ {S' w' g'}, c.sem S = .ok S' → c.run w = .ok w' → Named (c.uses U) S' → GInv w' S' g' → Follows c g g' →
      c.sem S ≠ .ub ∧ Ref (c.run w) (c.sem S) fun w' S' => Named (c.uses U) S' ∧ ∃ g', GInv w' S' g' ∧ Follows c g g' := by
    intro S' w' g' e1 e2 e3 e4 e5
    rw [e1]
    exact ⟨fun h => (nomatch h), w', e2, e3, g', e4, e5⟩
  cases c with
  | make i =>
    have hi : U i = false := by simpa [Call.fits] using hl
    have hg := h.free hU hi
    refine hok rfl rfl (hU.set i (some .nil)) (h.step i (some nil) (I' := inAny g) trivial ?_) (follows_set (fun _ _ h => by cases h; rfl) fun _ _ => by rw [hg]; exact fun _ _ _ h => h)
    have hr := h.rcAt i
    rw [hg] at hr ⊢
    exact ⟨Nat.le_refl _, hr, trivial, trivial, fun _ => Nat.zero_le _, fun b hb => .inl hb, fun b => by simp [own, AT.cnt], h.clean, fun U p h1 h2 _ _ => ⟨h1, h2⟩⟩
  | copy i j =>
    simp only [Call.fits, Bool.and_eq_true, Bool.not_eq_true'] at hl
    obtain ⟨hi, hj⟩ := hl
    have hg := h.free hU hi
    obtain ⟨t, ht, hs, hr⟩ := h.root hU hj
    obtain ⟨m', t', e1, e2, e3⟩ := h.copyTo (i := i) (by rw [hg]; rfl) (allData t.tree)
    have hsh := h.sh j
    have h1 := h.one j
    rw [show own (g j) = t by rw [ht]; rfl] at hsh h1
    have hsp : Call.spec S (.copy i j) = setVar S i (some t'.tree) := by simp only [Call.spec, hs, Option.map_some, e2]; rfl
    refine hok rfl ?_ (by rw [hsp]; exact hU.set i (some _)) (by rw [hsp]; exact e3) (follows_set (fun _ _ h => by cases h; rfl) fun _ _ => by rw [hg]; exact fun _ _ _ h => h.elim)
    simp only [Call.run, hr, obind_ok, allDataH_any hsh (hsh.depth_le h.rc h1), e1]
  | insert i x y d =>
    obtain ⟨t, ht, hs, hr⟩ := h.root hU hl
    have hrc := h.rcAt i
    have hsh := h.sh i
    have hlk := h.lk i
    have h1 := h.one i
    have hin : ∀ b, 0 < (own (g i)).cnt b → inAny g b := fun b hb => ⟨i, hb⟩
    rw [show own (g i) = t by rw [ht]; rfl] at hrc hsh hlk h1 hin
    obtain ⟨m', t', I', e1, e2, ek, s⟩ := insertH_any x y d hrc h.clean hsh hlk h1 hin
    have hwf := h.wf i t.tree hs
    have e3 := h.step i (some t') (m' := m') (I' := I') (by show WF t'.tree; rw [e2]; exact wf_insert hwf x y d) (by rw [ht]; exact s)
    have hsp : Call.spec S (.insert i x y d) = setVar S i (some t'.tree) := by simp only [Call.spec, hs, Option.map_some, e2]
    refine hok rfl ?_ (by rw [hsp]; exact hU.keep hl _) (by rw [hsp]; exact e3) (follows_set (fun _ _ h => by cases h; rfl) fun _ _ => by rw [ht]; exact ek)
    simp only [Call.run, hr, obind_ok, e1]
    rfl
  | remove i x y =>
    obtain ⟨t, ht, hs, hr⟩ := h.root hU hl
    have hrc := h.rcAt i
    have hsh := h.sh i
    have hlk := h.lk i
    have h1 := h.one i
    have hin : ∀ b, 0 < (own (g i)).cnt b → inAny g b := fun b hb => ⟨i, hb⟩
    rw [show own (g i) = t by rw [ht]; rfl] at hrc hsh hlk h1 hin
    have hwf := h.wf i t.tree hs
    have R := removeH_any x y hrc h.clean hsh hlk h1 hin
    simp only [Call.sem, hs, Option.elim, Call.run, hr, obind_ok]
    refine ⟨?_, ?_⟩
    · have := removePt_ne_ub hwf x y
      cases hp : removePt t.tree x y with
      | ok u => exact fun h => nomatch h
      | err e => exact fun h => nomatch h
      | ub => exact absurd hp this
    · have hw' : ∀ u, removePt t.tree x y = .ok u → WF u := fun u hu => (removeFrom_spec hwf hu).wf
      revert R hw'
      generalize removePt t.tree x y = p
      intro R hw'
      cases p with
      | err e =>
        have R : removeH x y t.root w.mem = .err e := R
        rw [R]; exact rfl
      | ub => trivial
      | ok u =>
        obtain ⟨⟨r', m'⟩, e1, t', I', e2, e3, s⟩ := R
        dsimp only at e3 s
        subst e3
        have e4 := h.step i (some t') (m' := m') (I' := I') (by show WF t'.tree; rw [← e2]; exact hw' u rfl) (by rw [ht]; exact s)
        refine ⟨_, by rw [e1]; rfl, ?_, setVar g i (some t'), ?_⟩
        · exact hU.keep hl u
        · exact ⟨by rw [e2]; exact e4, follows_set (fun _ _ h => (follow_not h).1) fun _ h => absurd rfl (follow_not h).2⟩
  | clear i =>
    obtain ⟨t, ht, hs, hr⟩ := h.root hU hl
    obtain ⟨m', e1, e2⟩ := h.clear ht (some nil) rfl
    refine hok rfl ?_ (hU.keep hl _) e2 (follows_set (fun _ _ h => (follow_not h).1) fun _ h => absurd rfl (follow_not h).2)
    simp only [Call.run, hr, obind_ok, e1]
    rfl
  | assign i j =>
    simp only [Call.fits, Bool.and_eq_true] at hl
    obtain ⟨hi, hj⟩ := hl
    obtain ⟨t, ht, hs, hr⟩ := h.root hU hi
    obtain ⟨m1, e1, h1⟩ := h.clear ht (some nil) rfl
    have hU1 : Named U (setVar S i (some .nil)) := hU.keep hi _
    obtain ⟨u, hu, hsu, hru⟩ := h1.root hU1 hj
    have hsh := h1.sh j
    have hone := h1.one j
    rw [show own (setVar g i (some nil) j) = u by rw [hu]; rfl] at hsh hone
    obtain ⟨m2, t', e2, e3, h2⟩ := h1.copyTo (i := i) (by rw [setVar_same]; rfl) (allData u.tree)
    rw [setVar_twice, setVar_twice, setVar_twice] at h2
    have hsp : Call.spec S (.assign i j) = setVar S i (some t'.tree) := by
      simp only [Call.spec]
      rw [show setVar S i (some Tree.nil) j = some u.tree from hsu, Option.map_some, e3]; rfl
    refine hok rfl ?_ (by rw [hsp]; exact hU.keep hi _) (by rw [hsp]; exact h2) (follows_set (fun _ _ h => (follow_not h).1) fun _ h => absurd rfl (follow_not h).2)
    simp only [Call.run, hr, obind_ok, e1]
    rw [show World.root ⟨m1, setVar w.var i (some none)⟩ j = .ok u.root from hru]
    simp only [obind_ok, allDataH_any hsh (hsh.depth_le h1.rc hone)]
    rw [show insertAllH (allData u.tree) none m1 = .ok (t'.root, m2) from e2]
    rfl
  | swap i j =>
    simp only [Call.fits, Bool.and_eq_true] at hl
    obtain ⟨hi, hj⟩ := hl
    obtain ⟨t, ht, hs, hr⟩ := h.root hU hi
    obtain ⟨u, hu, hsu, hru⟩ := h.root hU hj
    have hv : w.var i = some t.root ∧ w.var j = some u.root := ⟨by rw [h.var, ht]; rfl, by rw [h.var, hu]; rfl⟩
    have h1 := h.rename (swapped i j) (swapped_swapped i j)
    rw [← setVar_swapped, ← setVar_swapped, ← setVar_swapped, hv.1, hv.2] at h1
    refine hok (w' := ⟨w.mem, setVar (setVar w.var i (some u.root)) j (some t.root)⟩) rfl ?_ ?_ h1 ?_
    · simp only [Call.run, hr, hru, obind_ok]
    · have h1 := (hU.keep hi u.tree).keep hj t.tree
      rw [← hs, ← hsu] at h1
      exact h1
    · intro a b hab
      cases hab
      rw [setVar_swapped]; dsimp only; rw [swapped_swapped]
      exact Kept.refl _
  | destroy i =>
    obtain ⟨t, ht, hs, hr⟩ := h.root hU hl
    obtain ⟨m', e1, e2⟩ := h.clear ht none rfl
    refine hok rfl ?_ (hU.set i none) e2 (follows_set (fun _ _ h => (follow_not h).1) fun _ h => absurd rfl (follow_not h).2)
    simp only [Call.run, hr, obind_ok, e1]
    rfl

theorem GInv.runs {w : World V} {S : Trees V} {g : Nat → Option (AT V)} (h : GInv w S g) {U : Nat → Bool} (hU : Named U S) (l : List (Call V)) (hl : fitsAll U l = true) :
    semRun S l ≠ .ub ∧ Ref (w.run l) (semRun S l) fun w' S' => Named (usesAll U l) S' ∧ ∃ g', GInv w' S' g' ∧
      ∀ i j, followAll i l = some j → Kept (own (g i)) (own (g' j)) := by
  induction l generalizing w S g U with
  | nil => exact ⟨fun h => (nomatch h), w, rfl, hU, g, h, fun i j e => by cases e; exact Kept.refl _⟩
  | cons c l ih =>
    simp only [fitsAll, Bool.and_eq_true] at hl
    obtain ⟨h1, h2⟩ := h.run hU c hl.1
    simp only [semRun, World.run]
    refine ⟨?_, Ref.bind h2 fun w' S' ⟨hU', g', h', hf⟩ => (ih h' hU' hl.2).2.mono fun w2 S2 ⟨n2, g2, i2, k2⟩ => ⟨n2, g2, i2, fun i j e => ?_⟩⟩
    rotate_left
    · simp only [followAll] at e
      obtain ⟨k, e1, e2⟩ := Option.bind_eq_some_iff.1 e
      exact (hf i k e1).trans (k2 k j e2)
    cases hc : c.sem S with
    | ub => exact absurd hc h1
    | err e => exact fun h => nomatch h
    | ok S' =>
      rw [hc] at h2
      obtain ⟨w', _, hU', g', h', _⟩ := h2
      exact (ih h' hU' hl.2).1

theorem fitsAll_append (U : Nat → Bool) (l1 l2 : List (Call V)) : fitsAll U (l1 ++ l2) = (fitsAll U l1 && fitsAll (usesAll U l1) l2) := by
  induction l1 generalizing U with
  | nil => simp [fitsAll, usesAll]
  | cons c l ih => simp [fitsAll, usesAll, ih, Bool.and_assoc]

theorem Sh.reach {I : Nat → Prop} {m : Mem V} {t : AT V} (h : Sh I m t) {b : Nat} : Reach m t.root b ↔ 0 < t.cnt b := by
  induction t with
  | nil => exact ⟨fun h => (nomatch h), fun h => absurd h (by simp [AT.cnt])⟩
  | node a x y d ok kids ih =>
    obtain ⟨⟨c, hc, rfl, rfl, rfl, hkid⟩, hk⟩ := h
    constructor
    · intro hr
      generalize hp : (node a c.x c.y c.d ok kids).root = o at hr
      cases hr with
      | here => cases hp; exact root_pos rfl
      | down q h2 hr =>
        cases hp
        rw [hc] at h2; cases h2
        rw [hkid q] at hr
        have h1 := (ih q (hk q).1).1 hr
        have := cnt_le kids q b
        rw [AT.cnt_node]; omega
    · intro hb
      by_cases e : b = a
      · subst e; exact .here _
      · rw [AT.cnt_node, if_neg e] at hb
        obtain ⟨q, hq⟩ := cntK_pos (by omega : 0 < cntK kids b)
        exact .down q hc (by rw [hkid q]; exact (ih q (hk q).1).2 hq)

theorem Sh.view {I : Nat → Prop} {m : Mem V} {t : AT V} {p : Option Nat} {f : Nat} (h : Sh I m t) (hl : Lk I m p t) (hd : ∀ b, t.cnt b ≤ 1)
    (hI : ∀ b, 0 < t.cnt b → I b) (hp : ∀ a, p = some a → I a ∧ t.cnt a = 0) (hf : t.depth ≤ f) : Quad.view f p t.root m = .ok t.tree := by
  induction t generalizing p f with
  | nil => cases f <;> rfl
  | node a x y d ok kids ih =>
    obtain ⟨⟨c, hc, rfl, rfl, rfl, hkid⟩, hk⟩ := h
    obtain ⟨f, rfl⟩ : ∃ g, f = g + 1 := ⟨f - 1, by simp only [depth] at hf; omega⟩
    have hle : ∀ q b, (kids q).cnt b + (if b = a then 1 else 0) ≤ (node a c.x c.y c.d ok kids).cnt b := fun q b => by
      have := cnt_le kids q b; rw [AT.cnt_node]; omega
    have hi : ∀ q, Quad.view f (some a) (c.kid q) m = .ok (kids q).tree := fun q => by
      rw [hkid q]
      refine ih q (hk q).1 (hk q).2 (fun b => ?_) (fun b hb => hI b ?_) (fun b hb => ?_) (by have := depth_kid a c.x c.y c.d ok kids q; omega)
      · have h1 := hle q b; have h2 := hd b; omega
      · have h1 := hle q b; omega
      · cases hb
        have h1 := hle q a; have h2 := hd a
        rw [if_pos rfl] at h1
        exact ⟨hI a (root_pos rfl), by omega⟩
    have h1 := hi .ne; have h2 := hi .nw; have h3 := hi .se; have h4 := hi .sw
    simp only [Cell.kid] at h1 h2 h3 h4
    obtain ⟨c', hc', l1, l2⟩ := hl
    rw [hc] at hc'; cases hc'
    have hpar : (c.par == p) = ok := by
      cases ok with
      | true => simp [l1 rfl]
      | false =>
        obtain ⟨b, hb, hb'⟩ := l2 rfl
        rw [hb]
        simp only [beq_eq_false_iff_ne]
        intro e
        obtain ⟨q1, q2⟩ := hp b e.symm
        rcases hb' with e1 | e1
        · subst e1; have := root_pos (rfl : (node b c.x c.y c.d false kids).root = some b); omega
        · exact e1 q1
    simp [AT.root, Quad.view, get_eq hc, h1, h2, h3, h4, tree, mk, hpar]

end Mdds.Quad
