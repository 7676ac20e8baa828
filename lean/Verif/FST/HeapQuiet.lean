import Verif.FST.HeapHistory

/-!
# Calls that leave the leaves alone

The flag returned by an insertion or a shift says whether `m_valid_tree` is left alone.  Here: in
that case no link and no key has changed, so a search tree that points to the leaves stays right.
-/
namespace Mdds.FST.Mem

variable {V : Type}

/-- Every node of `h'` was there in `h`, with the same links and the same key. -/
structure Sub (h h' : Heap V) : Prop where
  left : ∀ o, h'.root (.left o) = h.root (.left o)
  node : ∀ a n', h'.node a = some n' → ∃ n, h.node a = some n ∧ n'.next = n.next ∧ n'.key = n.key

theorem Sub.refl (h : Heap V) : Sub h h := ⟨fun _ => rfl, fun _ n e => ⟨n, e, rfl, rfl⟩⟩

theorem Sub.trans {h h' h'' : Heap V} (s : Sub h h') (t : Sub h' h'') : Sub h h'' := by
  refine ⟨fun o => (t.left o).trans (s.left o), fun a n'' e => ?_⟩
  obtain ⟨n', e', a1, a2⟩ := t.node a n'' e
  obtain ⟨n, e0, b1, b2⟩ := s.node a n' e'
  exact ⟨n, e0, a1.trans b1, a2.trans b2⟩

/-- When the result satisfies `F`, nothing has changed. -/
def Quiet {α : Type} (p : Prog V α) (F : α → Prop) : Prop := ∀ h a h', p h = .ok (a, h') → F a → Sub h h'

/-- The result never satisfies `F`. -/
def Loud {α : Type} (p : Prog V α) (F : α → Prop) : Prop := ∀ h a h', p h = .ok (a, h') → ¬ F a

theorem bind_ok {α β : Type} {p : Prog V α} {k : α → Prog V β} {h h'' : Heap V} {b : β} (e : (p >>= k) h = .ok (b, h'')) :
    ∃ a h', p h = .ok (a, h') ∧ k a h' = .ok (b, h'') := by
  have e : Prog.seq p k h = .ok (b, h'') := e
  unfold Prog.seq at e
  cases hp : p h with
  | ok x => rw [hp] at e; exact ⟨x.1, x.2, rfl, e⟩
  | err x => rw [hp] at e; cases e
  | ub => rw [hp] at e; cases e

theorem Loud.quiet {α : Type} {p : Prog V α} {F : α → Prop} (l : Loud p F) : Quiet p F := fun h a h' e f => absurd f (l h a h' e)

theorem loud_pure {α : Type} {a : α} {F : α → Prop} (h : ¬ F a) : Loud (V := V) (pure a) F := by
  intro h0 a' h' e
  have e : Prog.ret a h0 = .ok (a', h') := e
  cases e; exact h

theorem loud_bind {α β : Type} {p : Prog V α} {k : α → Prog V β} {F : β → Prop} (hk : ∀ a, Loud (k a) F) : Loud (p >>= k) F := by
  intro h b h'' e
  obtain ⟨a, h', _, e2⟩ := bind_ok e
  exact hk a h' b h'' e2

theorem loud_bind_flag {α β : Type} {p : Prog V α} {k : α → Prog V β} {F : β → Prop} (G : α → Prop) (hp : Loud p G)
    (hk : ∀ a, ¬ G a → Loud (k a) F) : Loud (p >>= k) F := by
  intro h b h'' e
  obtain ⟨a, h', e1, e2⟩ := bind_ok e
  exact hk a (hp h a h' e1) h' b h'' e2

theorem quiet_ret {α : Type} {a : α} {F : α → Prop} : Quiet (V := V) (Prog.ret a) F := by
  intro h a' h' e _
  cases e; exact Sub.refl _

theorem quiet_pure {α : Type} {a : α} {F : α → Prop} : Quiet (V := V) (pure a) F := quiet_ret

theorem quiet_undef {α : Type} {F : α → Prop} : Quiet (V := V) (Prog.undef : Prog V α) F := by
  intro h a' h' e _
  cases e

theorem quiet_bind {α β : Type} {p : Prog V α} {k : α → Prog V β} {F : β → Prop} (hp : Quiet p fun _ => True)
    (hk : ∀ a, Quiet (k a) F) : Quiet (p >>= k) F := by
  intro h b h'' e f
  obtain ⟨a, h', e1, e2⟩ := bind_ok e
  exact (hp h a h' e1 trivial).trans (hk a h' b h'' e2 f)

/-- A flag handed on: the continuation is quiet and `F` at the end means `G` in between. -/
theorem quiet_bind_flag {α β : Type} {p : Prog V α} {k : α → Prog V β} {F : β → Prop} (G : α → Prop) (hp : Quiet p G)
    (hk : ∀ a, Quiet (k a) F) (hl : ∀ a, ¬ G a → Loud (k a) F) : Quiet (p >>= k) F := by
  intro h b h'' e f
  obtain ⟨a, h', e1, e2⟩ := bind_ok e
  by_cases g : G a
  · exact (hp h a h' e1 g).trans (hk a h' b h'' e2 f)
  · exact absurd f (hl a g h' b h'' e2)

/-- Programs that only look. -/
theorem quiet_look {α : Type} {p : Prog V α} {F : α → Prop} (hp : ∀ h a h', p h = .ok (a, h') → h' = h) : Quiet p F := by
  intro h a h' e _
  rw [hp h a h' e]; exact Sub.refl _

theorem quiet_get {x : Root} {F : Option Nat → Prop} : Quiet (V := V) (get x) F :=
  quiet_look fun h a h' e => by cases e; rfl

theorem quiet_loopBound {F : Nat → Prop} : Quiet (V := V) loopBound F :=
  quiet_look fun h a h' e => by cases e; rfl

theorem quiet_deref {a : Nat} {F : Node V → Prop} : Quiet (deref a) F := by
  refine quiet_look fun h b h' e => ?_
  unfold deref at e
  cases hn : h.node a with
  | none => rw [hn] at e; cases e
  | some n => rw [hn] at e; cases e; rfl

theorem quiet_nonnull {p : Option Nat} {F : Nat → Prop} : Quiet (V := V) (nonnull p) F := by
  cases p with
  | none => exact quiet_undef
  | some a => exact quiet_ret

theorem quiet_getKey {a : Nat} {F : Int → Prop} : Quiet (V := V) (getKey a) F := quiet_bind quiet_deref fun _ => quiet_pure
theorem quiet_getVal {a : Nat} {F : V → Prop} : Quiet (V := V) (getVal a) F := quiet_bind quiet_deref fun _ => quiet_pure
theorem quiet_getNext {a : Nat} {F : Option Nat → Prop} : Quiet (V := V) (getNext a) F := quiet_bind quiet_deref fun _ => quiet_pure
theorem quiet_getPrev {a : Nat} {F : Option Nat → Prop} : Quiet (V := V) (getPrev a) F := quiet_bind quiet_deref fun _ => quiet_pure

theorem quiet_setVal {a : Nat} {v : V} {F : Unit → Prop} : Quiet (setVal a v) F := by
  intro h u h' e _
  unfold setVal at e
  cases hn : h.node a with
  | none => rw [hn] at e; cases e
  | some n =>
    rw [hn] at e; cases e
    refine ⟨fun _ => rfl, fun b n' hb => ?_⟩
    by_cases hba : b = a
    · subst hba
      simp only [upd, if_true] at hb
      cases hb
      exact ⟨n, hn, rfl, rfl⟩
    · simp only [upd, if_neg hba] at hb
      exact ⟨n', hb, rfl, rfl⟩

theorem drain_sub : ∀ (fuel : Nat) (work : List Nat) (h h' : Heap V), drain fuel work h = .ok h' → Sub h h' := by
  intro fuel
  induction fuel with
  | zero =>
    intro work h h' e
    cases work with
    | nil => unfold drain at e; cases e; exact Sub.refl _
    | cons a w => unfold drain at e; cases e
  | succ fuel ih =>
    intro work h h' e
    cases work with
    | nil => unfold drain at e; cases e; exact Sub.refl _
    | cons a w =>
      unfold drain at e
      cases hn : h.node a with
      | none => rw [hn] at e; cases e
      | some n =>
        rw [hn] at e
        dsimp only at e
        split at e
        · have t := ih _ _ _ e
          refine Sub.trans ?_ t
          refine ⟨fun _ => rfl, fun b n' hb => ?_⟩
          by_cases hba : b = a
          · simp [upd, hba] at hb
          · simp only [upd, if_neg hba] at hb
            exact ⟨n', hb, rfl, rfl⟩
        · have t := ih _ _ _ e
          refine Sub.trans ?_ t
          refine ⟨fun _ => rfl, fun b n' hb => ?_⟩
          by_cases hba : b = a
          · subst hba
            simp only [upd, if_true] at hb
            cases hb
            exact ⟨n, hn, rfl, rfl⟩
          · simp only [upd, if_neg hba] at hb
            exact ⟨n', hb, rfl, rfl⟩

theorem addRef_sub {v : Option Nat} {h h' : Heap V} (e : addRef v h = .ok h') : Sub h h' := by
  unfold addRef at e
  cases v with
  | none => cases e; exact Sub.refl _
  | some a =>
    dsimp only at e
    cases hn : h.node a with
    | none => rw [hn] at e; cases e
    | some n =>
      rw [hn] at e; cases e
      refine ⟨fun _ => rfl, fun b n' hb => ?_⟩
      by_cases hba : b = a
      · subst hba
        simp only [upd, if_true] at hb
        cases hb
        exact ⟨n, hn, rfl, rfl⟩
      · simp only [upd, if_neg hba] at hb
        exact ⟨n', hb, rfl, rfl⟩

theorem writeVar_sub (h : Heap V) (x : Var) (v : Option Nat) : Sub h (h.write (.root (.var x)) v) :=
  ⟨fun o => by simp [Heap.write, upd], fun _ n e => ⟨n, e, rfl, rfl⟩⟩

theorem quiet_assign {x : Var} {v : Option Nat} {F : Unit → Prop} : Quiet (V := V) (assign (.root (.var x)) v) F := by
  intro h u h' e _
  unfold assign at e
  rw [if_pos (show h.hasLoc (.root (.var x)) = true from rfl)] at e
  cases h1 : addRef v h with
  | err z => rw [h1] at e; cases e
  | ub => rw [h1] at e; cases e
  | ok h1' =>
    rw [h1] at e
    dsimp only at e
    cases h2 : release (h1'.read (.root (.var x))) (h1'.write (.root (.var x)) v) with
    | err z => rw [h2] at e; cases e
    | ub => rw [h2] at e; cases e
    | ok h2' =>
      rw [h2] at e; cases e
      exact (addRef_sub h1).trans ((writeVar_sub _ x v).trans (drain_sub _ _ _ _ h2))

theorem quiet_moveTo {x y : Var} {F : Unit → Prop} : Quiet (V := V) (moveTo (.root (.var x)) (.var y)) F := by
  intro h u h' e _
  unfold moveTo at e
  rw [if_pos (show h.hasLoc (.root (.var x)) = true from rfl)] at e
  dsimp only at e
  split at e
  · rename_i h2 e2
    cases e
    exact (writeVar_sub _ y none).trans ((writeVar_sub _ x _).trans (drain_sub _ _ _ _ e2))
  · cases e
  · cases e

theorem quiet_drop {x : Var} {F : Unit → Prop} : Quiet (V := V) (drop x) F := quiet_assign

theorem quiet_dropAll {xs : List Var} {F : Unit → Prop} : Quiet (V := V) (dropAll xs) F := by
  induction xs generalizing F with
  | nil => exact quiet_ret
  | cons x xs ih => exact quiet_bind quiet_drop fun _ => ih

theorem quiet_insPosP {key : Int} {F : Option Nat → Prop} : ∀ (fuel : Nat) (p : Option Nat), Quiet (V := V) (insPosP key fuel p) F := by
  intro fuel
  induction fuel with
  | zero => intro p; cases p <;> exact quiet_undef
  | succ fuel ih =>
    intro p
    cases p with
    | none => exact quiet_ret
    | some a =>
      unfold insPosP
      refine quiet_bind quiet_getKey fun k => ?_
      split
      · exact quiet_ret
      · exact quiet_bind quiet_getNext fun _ => ih _

theorem quiet_insPosRevP {key : Int} {F : Option Nat → Prop} : ∀ (fuel : Nat) (p : Option Nat), Quiet (V := V) (insPosRevP key fuel p) F := by
  intro fuel
  induction fuel with
  | zero => intro p; cases p <;> exact quiet_undef
  | succ fuel ih =>
    intro p
    cases p with
    | none => exact quiet_ret
    | some a =>
      unfold insPosRevP
      refine quiet_bind quiet_getKey fun k => ?_
      split
      · exact quiet_ret
      · exact quiet_bind quiet_getPrev fun _ => ih _

theorem quiet_adjustP {o : Nat} {s e : Int} {F : Option (Int × Int) → Prop} : Quiet (V := V) (adjustP o s e) F := by
  unfold adjustP
  split
  · exact quiet_ret
  · refine quiet_bind quiet_get fun _ => quiet_bind quiet_nonnull fun _ => quiet_bind quiet_getKey fun _ => ?_
    refine quiet_bind quiet_get fun _ => quiet_bind quiet_nonnull fun _ => quiet_bind quiet_getKey fun _ => ?_
    split <;> exact quiet_ret

theorem quiet_peek {p : Option Nat} {F : Option (Leaf V) → Prop} : Quiet (peek p) F := by
  cases p with
  | none => exact quiet_ret
  | some a => exact quiet_bind quiet_getKey fun _ => quiet_bind quiet_getVal fun _ => quiet_pure

theorem quiet_advance {F : Option Nat → Prop} : ∀ (n : Nat) (p : Option Nat), Quiet (V := V) (advance n p) F := by
  intro n
  induction n with
  | zero => intro p; exact quiet_ret
  | succ n ih => intro p; exact quiet_bind quiet_nonnull fun _ => quiet_bind quiet_getNext fun _ => ih _

theorem quiet_hintP {o : Nat} {p : Option Nat} {F : Option Nat → Prop} : Quiet (V := V) (hintP o p) F := by
  cases p with
  | none => exact quiet_ret
  | some i => exact quiet_bind quiet_get fun _ => quiet_advance _ _

section
variable [DecidableEq V]

omit [DecidableEq V] in
theorem quiet_endPosP {o : Nat} {e : Int} {F : Unit → Prop} : Quiet (V := V) (endPosP o e) F := by
  unfold endPosP
  refine quiet_bind quiet_loopBound fun _ => quiet_bind quiet_get fun _ => quiet_bind (quiet_insPosP _ _) fun _ =>
    quiet_bind quiet_assign fun _ => quiet_bind quiet_get fun _ => ?_
  split
  · exact quiet_bind quiet_get fun _ => quiet_assign
  · exact quiet_ret

theorem quiet_insStartP (s : Int) (val : V) : Quiet (insStartP s val) (fun r => r.2 = false) := by
  unfold insStartP
  refine quiet_bind quiet_get fun _ => quiet_bind quiet_nonnull fun sp => quiet_bind quiet_getKey fun _ => ?_
  split
  · refine quiet_bind quiet_getPrev fun p => ?_
    cases p with
    | some p =>
      refine quiet_bind quiet_getVal fun _ => ?_
      split
      · exact quiet_bind quiet_getVal fun _ => quiet_bind quiet_getPrev fun _ => quiet_bind quiet_assign fun _ => quiet_pure
      · exact quiet_bind quiet_getVal fun _ => quiet_bind quiet_setVal fun _ => quiet_bind quiet_moveTo fun _ => quiet_pure
    | none =>
      exact quiet_bind quiet_getVal fun _ => quiet_bind quiet_setVal fun _ => quiet_bind quiet_moveTo fun _ => quiet_pure
  · refine quiet_bind quiet_getPrev fun _ => quiet_bind quiet_nonnull fun p => quiet_bind quiet_getVal fun _ => ?_
    split
    · exact quiet_bind quiet_getVal fun _ => quiet_bind quiet_getPrev fun _ => quiet_bind quiet_assign fun _ => quiet_pure
    · refine Loud.quiet ?_
      refine loud_bind fun _ => loud_bind fun _ => loud_bind fun _ => loud_bind fun _ => loud_bind fun _ => loud_bind fun _ =>
        loud_bind fun _ => loud_bind fun _ => loud_bind fun _ => loud_bind fun _ => loud_pure (by simp)

omit [DecidableEq V] in
theorem loud_insLoopP : ∀ (fuel : Nat) (old : V), Loud (insLoopP fuel old true) (fun r => r.2 = false) := by
  intro fuel
  induction fuel with
  | zero => intro old h a h' e; cases e
  | succ fuel ih =>
    intro old
    unfold insLoopP
    refine loud_bind fun c => loud_bind fun _ => ?_
    split
    · exact loud_pure (by simp)
    · exact loud_bind fun _ => loud_bind fun _ => loud_bind fun _ => loud_bind fun _ => loud_bind fun _ => loud_bind fun _ =>
        loud_bind fun _ => loud_bind fun _ => ih _

omit [DecidableEq V] in
theorem quiet_insLoopP (fuel : Nat) (old : V) (ch : Bool) : Quiet (insLoopP fuel old ch) (fun r => r.2 = false) := by
  cases fuel with
  | zero => exact quiet_undef
  | succ fuel =>
    unfold insLoopP
    refine quiet_bind quiet_get fun c => quiet_bind quiet_get fun _ => ?_
    split
    · exact quiet_ret
    · exact Loud.quiet (loud_bind fun _ => loud_bind fun _ => loud_bind fun _ => loud_bind fun _ => loud_bind fun _ =>
        loud_bind fun _ => loud_bind fun _ => loud_bind fun _ => loud_insLoopP _ _)

theorem quiet_insEndP (e : Int) (val old : V) (ch : Bool) : Quiet (insEndP e val old ch) (fun r => r = false) := by
  unfold insEndP
  refine quiet_bind quiet_get fun _ => quiet_bind quiet_nonnull fun ep => quiet_bind quiet_get fun _ =>
    quiet_bind quiet_nonnull fun ns => quiet_bind quiet_getKey fun _ => ?_
  split
  · refine quiet_bind quiet_getNext fun _ => quiet_bind quiet_getVal fun _ => ?_
    split
    · refine Loud.quiet ?_
      refine loud_bind fun _ => loud_bind fun _ => loud_bind fun n => ?_
      cases n
      · exact loud_bind fun _ => loud_bind fun _ => loud_pure (by simp)
      · exact loud_bind fun _ => loud_bind fun _ => loud_pure (by simp)
    · refine quiet_bind quiet_getNext fun _ => ?_
      split
      · exact Loud.quiet (loud_bind fun _ => loud_bind fun _ => loud_pure (by simp))
      · exact quiet_pure
  · split
    · refine quiet_bind quiet_getNext fun _ => ?_
      split
      · exact Loud.quiet (loud_bind fun _ => loud_pure (by simp))
      · exact quiet_pure
    · exact Loud.quiet (loud_bind fun _ => loud_bind fun _ => loud_bind fun _ => loud_bind fun _ => loud_pure (by simp))

theorem loud_insEndP (e : Int) (val old : V) : Loud (insEndP e val old true) (fun r => r = false) := by
  unfold insEndP
  refine loud_bind fun _ => loud_bind fun ep => loud_bind fun _ => loud_bind fun ns => loud_bind fun _ => ?_
  split
  · refine loud_bind fun _ => loud_bind fun _ => ?_
    split
    · refine loud_bind fun _ => loud_bind fun _ => loud_bind fun n => ?_
      cases n
      · exact loud_bind fun _ => loud_bind fun _ => loud_pure (by simp)
      · exact loud_bind fun _ => loud_bind fun _ => loud_pure (by simp)
    · refine loud_bind fun _ => ?_
      split
      · exact loud_bind fun _ => loud_bind fun _ => loud_pure (by simp)
      · exact loud_pure (by simp)
  · split
    · refine loud_bind fun _ => ?_
      split
      · exact loud_bind fun _ => loud_pure (by simp)
      · exact loud_pure (by simp)
    · exact loud_bind fun _ => loud_bind fun _ => loud_bind fun _ => loud_bind fun _ => loud_pure (by simp)

theorem quiet_insertToPosP (o : Nat) (s e : Int) (val : V) : Quiet (insertToPosP o s e val) (fun r => r.2 = false) := by
  unfold insertToPosP
  refine quiet_bind quiet_endPosP fun _ => ?_
  refine quiet_bind_flag (fun r => r.2 = false) (quiet_insStartP s val) (fun r => ?_) (fun r hr => ?_)
  · obtain ⟨old0, ch0⟩ := r
    refine quiet_bind quiet_get fun _ => quiet_bind quiet_nonnull fun _ => quiet_bind quiet_getNext fun _ =>
      quiet_bind quiet_assign fun _ => quiet_bind quiet_loopBound fun _ => ?_
    refine quiet_bind_flag (fun r => r.2 = false) (quiet_insLoopP _ _ _) (fun r => ?_) (fun r hr => ?_)
    · obtain ⟨old, ch1⟩ := r
      refine quiet_bind_flag (fun r => r = false) (quiet_insEndP _ _ _ _) (fun r => ?_) (fun r hr => ?_)
      · exact quiet_bind quiet_get fun _ => quiet_bind quiet_dropAll fun _ => quiet_pure
      · exact loud_bind fun _ => loud_bind fun _ => loud_pure hr
    · obtain ⟨old, ch1⟩ := r
      obtain rfl : ch1 = true := by simpa using hr
      exact loud_bind_flag _ (loud_insEndP _ _ _) fun r hr => loud_bind fun _ => loud_bind fun _ => loud_pure hr
  · obtain ⟨old0, ch0⟩ := r
    obtain rfl : ch0 = true := by simpa using hr
    refine loud_bind fun _ => loud_bind fun _ => loud_bind fun _ => loud_bind fun _ => loud_bind fun _ => ?_
    refine loud_bind_flag _ (loud_insLoopP _ _) fun r hr => ?_
    obtain ⟨old, ch1⟩ := r
    obtain rfl : ch1 = true := by simpa using hr
    exact loud_bind_flag _ (loud_insEndP _ _ _) fun r hr => loud_bind fun _ => loud_bind fun _ => loud_pure hr

theorem quiet_insertSegmentP (o : Nat) (s e : Int) (val : V) (fwd : Bool) :
    Quiet (insertSegmentP o s e val fwd) (fun r => r.2 = false) := by
  unfold insertSegmentP
  refine quiet_bind quiet_adjustP fun r => ?_
  cases r with
  | none => exact quiet_pure
  | some r =>
    obtain ⟨s, e⟩ := r
    have rest : Quiet (V := V) (do
        if (← get (.var .startPos)) = none then
          drop .startPos
          return (none, false)
        else insertToPosP o s e val) (fun r => r.2 = false) := by
      refine quiet_bind quiet_get fun _ => ?_
      split
      · exact quiet_bind quiet_drop fun _ => quiet_pure
      · exact quiet_insertToPosP _ _ _ _
    dsimp only
    split
    · exact quiet_bind quiet_loopBound fun _ => quiet_bind quiet_get fun _ => quiet_bind (quiet_insPosP _ _) fun _ =>
        quiet_bind quiet_assign fun _ => rest
    · refine quiet_bind quiet_loopBound fun _ => quiet_bind quiet_get fun _ => quiet_bind (quiet_insPosRevP _ _) fun p => ?_
      cases p with
      | none => exact quiet_bind quiet_get fun _ => quiet_bind quiet_assign fun _ => rest
      | some p => exact quiet_bind quiet_getNext fun _ => quiet_bind quiet_assign fun _ => rest

theorem quiet_insertHintP (o : Nat) (p : Option Nat) (s e : Int) (val : V) :
    Quiet (insertHintP o p s e val) (fun r => r.2 = false) := by
  cases p with
  | none => exact quiet_insertSegmentP _ _ _ _ _
  | some p =>
    unfold insertHintP
    refine quiet_bind quiet_getKey fun _ => ?_
    split
    · exact quiet_insertSegmentP _ _ _ _ _
    · refine quiet_bind quiet_adjustP fun r => ?_
      cases r with
      | none => exact quiet_pure
      | some r =>
        exact quiet_bind quiet_loopBound fun _ => quiet_bind (quiet_insPosP _ _) fun _ =>
          quiet_bind quiet_assign fun _ => quiet_insertToPosP _ _ _ _

theorem quiet_insertP (o : Nat) (s e : Int) (v : V) (fwd : Bool) : Quiet (insertP o s e v fwd) (fun r => r.2 = false) := by
  unfold insertP
  refine quiet_bind_flag (fun r => r.2 = false) (quiet_insertSegmentP _ _ _ _ _) (fun r => ?_) (fun r hr => ?_)
  · exact quiet_bind quiet_peek fun _ => quiet_pure
  · exact loud_bind fun _ => loud_pure hr

theorem quiet_insertAtP (o : Nat) (hint : Option Nat) (s e : Int) (v : V) : Quiet (insertAtP o hint s e v) (fun r => r.2 = false) := by
  unfold insertAtP
  refine quiet_bind quiet_hintP fun _ => ?_
  refine quiet_bind_flag (fun r => r.2 = false) (quiet_insertHintP _ _ _ _ _) (fun r => ?_) (fun r hr => ?_)
  · exact quiet_bind quiet_peek fun _ => quiet_pure
  · exact loud_bind fun _ => loud_pure hr

theorem quiet_appendNewP (o : Nat) (init : V) (k : Int) : Quiet (appendNewP o init k) (fun r => r = false) := by
  unfold appendNewP
  refine quiet_bind quiet_get fun _ => quiet_bind quiet_nonnull fun r => quiet_bind quiet_getPrev fun _ =>
    quiet_bind quiet_nonnull fun p => quiet_bind quiet_getKey fun _ => ?_
  split
  · exact quiet_bind quiet_setVal fun _ => quiet_pure
  · refine quiet_bind quiet_getVal fun _ => ?_
    split
    · exact quiet_pure
    · exact Loud.quiet (loud_bind fun _ => loud_bind fun _ => loud_bind fun _ => loud_bind fun _ => loud_bind fun _ =>
        loud_bind fun _ => loud_bind fun _ => loud_bind fun _ => loud_pure (by simp))

omit [DecidableEq V] in
theorem quiet_slStartP {s lo : Int} {l : Nat} {F : Unit → Prop} : Quiet (V := V) (slStartP s lo l) F := by
  unfold slStartP
  split
  · exact quiet_assign
  · exact quiet_bind quiet_loopBound fun _ => quiet_bind quiet_getNext fun _ => quiet_bind (quiet_insPosP _ _) fun _ => quiet_assign

theorem quiet_shiftLeftP (o : Nat) (init : V) (s e : Int) : Quiet (shiftLeftP o init s e) (fun b => b = true) := by
  unfold shiftLeftP
  split
  · exact quiet_pure
  refine quiet_bind quiet_get fun _ => quiet_bind quiet_nonnull fun l => quiet_bind quiet_getKey fun lo =>
    quiet_bind quiet_get fun _ => quiet_bind quiet_nonnull fun r => quiet_bind quiet_getKey fun hi => ?_
  split
  · exact quiet_pure
  split
  · exact quiet_pure
  refine quiet_bind quiet_slStartP fun _ => quiet_bind quiet_get fun np => ?_
  cases np with
  | none => exact quiet_pure
  | some np =>
    dsimp only
    split
    · refine quiet_bind_flag (fun r => r = false) (quiet_appendNewP _ _ _) (fun b => ?_) (fun b hb => ?_)
      · exact quiet_bind quiet_drop fun _ => quiet_pure
      · exact loud_bind fun _ => loud_pure (by simpa using hb)
    · refine quiet_bind quiet_getKey fun _ => ?_
      split
      · exact Loud.quiet (loud_bind fun _ => loud_bind fun _ => loud_bind fun _ => loud_bind fun _ => loud_bind fun _ => loud_pure (by simp))
      · exact Loud.quiet (loud_bind fun _ => loud_bind fun _ => loud_bind fun _ => loud_bind fun _ => loud_bind fun _ =>
          loud_bind fun _ => loud_bind fun _ => loud_bind fun _ => loud_bind fun _ => loud_bind fun _ => loud_bind fun _ =>
          loud_bind fun _ => loud_bind fun _ => loud_bind fun _ => loud_bind fun _ => loud_bind fun _ => loud_bind fun _ =>
          loud_bind fun _ => loud_bind fun _ => loud_bind fun _ => loud_pure (by simp))

omit [DecidableEq V] in
theorem quiet_srStartP {pos : Int} {skip : Bool} {l : Nat} {F : Unit → Prop} : Quiet (V := V) (srStartP pos skip l) F := by
  unfold srStartP
  refine quiet_bind quiet_loopBound fun _ => quiet_bind quiet_getNext fun _ => quiet_bind (quiet_insPosP _ _) fun p =>
    quiet_bind quiet_assign fun _ => ?_
  cases p with
  | none => exact quiet_ret
  | some c =>
    refine quiet_bind quiet_getKey fun _ => ?_
    split
    · exact quiet_bind quiet_getNext fun _ => quiet_assign
    · exact quiet_ret

theorem quiet_shiftRightP (o : Nat) (init : V) (pos size : Int) (skip : Bool) :
    Quiet (shiftRightP o init pos size skip) (fun b => b = true) := by
  unfold shiftRightP
  split
  · exact quiet_pure
  refine quiet_bind quiet_get fun _ => quiet_bind quiet_nonnull fun l => quiet_bind quiet_getKey fun lo =>
    quiet_bind quiet_get fun _ => quiet_bind quiet_nonnull fun r => quiet_bind quiet_getKey fun hi => ?_
  split
  · exact quiet_pure
  split
  · exact Loud.quiet (loud_bind fun _ => loud_bind fun _ => loud_bind fun _ => loud_bind fun _ => loud_bind fun _ => loud_pure (by simp))
  · refine quiet_bind quiet_srStartP fun _ => quiet_bind quiet_get fun _ => ?_
    split
    · exact quiet_pure
    · exact Loud.quiet (loud_bind fun _ => loud_bind fun _ => loud_pure (by simp))

end

end Mdds.FST.Mem
