import Verif.FST.HeapWorld

/-!
# Memory and lists stay in agreement
-/
namespace Mdds.FST.Mem

variable {V : Type}

/-- Memory and lists agree on all containers; `C` says where their nodes are. -/
structure RelC (m : Mem V) (S : Objs V) (C : Nat → List Nat) : Prop where
  init : ∀ o, m.init o = (S o).map (·.init)
  heap : ∃ L, WldC m.heap C L ∧ L 0 = [] ∧ ∀ o, L (slot o) = ((S o).map (·.leaves)).getD []

/-- Memory and lists agree on all containers. -/
def Rel (m : Mem V) (S : Objs V) : Prop := ∃ C, RelC m S C

theorem path_unique {N N' : Nat → Option Nat} : ∀ {as bs : List Nat}, Path N as none → Path N' bs none → as.head? = bs.head? →
    (∀ a ∈ bs, N' a = N a) → bs = as := by
  intro as
  induction as with
  | nil => intro bs _ _ e _; cases bs with
    | nil => rfl
    | cons b bs => simp at e
  | cons a as ih =>
    intro bs h1 h2 e hN
    cases bs with
    | nil => simp at e
    | cons b bs =>
      obtain rfl : a = b := by simpa using e
      simp only [path_cons, Option.or_none] at h1 h2
      rw [ih h1.2 h2.2 (by rw [← h1.1, ← h2.1]; exact (hN a (by simp)).symm) fun x hx => hN x (by simp [hx])]

/-- A program that changed no link and no key left the nodes of all containers where they were. -/
theorem Sub.mv {h h' : Heap V} {C C' : Nat → List Nat} {L L' : Nat → List (Leaf V)} (s : Sub h h') (w : WldC h C L) (w' : WldC h' C' L') :
    Mv some h C h' C' := by
  obtain ⟨g, w, -⟩ := w
  obtain ⟨g', w', -⟩ := w'
  intro p q e
  cases e
  have hN : ∀ a ∈ C' p, g'.N a = g.N a ∧ g'.K a = g.K a := fun a ha => by
    obtain ⟨n', hn'⟩ := Option.isSome_iff_exists.1 (w'.live ha)
    obtain ⟨n, hn, e1, e2⟩ := s.node a n' hn'
    have f := w.sat.node a n hn
    have f' := w'.sat.node a n' hn'
    exact ⟨by rw [← f'.1, ← f.1, e1], by rw [← f'.2.2.1, ← f.2.2.1, e2]⟩
  have hC : C' p = C p := path_unique (w.fwd p) (w'.fwd p)
    (by rw [← w.left, ← w'.left, ← w.sat.root, ← w'.sat.root]; exact (s.left p).symm) fun a ha => (hN a ha).1
  refine ⟨hC, fun a ha => ?_⟩
  rw [w.keyAt ha, w'.keyAt (o := p) (by rw [hC]; exact ha), (hN a (by rw [hC]; exact ha)).2]

theorem wp_quiet {α : Type} {p : Prog V α} {Q : α → Heap V → Prop} {F : α → Prop} {h : Heap V} (w : wp p Q h) (q : Quiet p F) :
    wp p (fun a h' => Q a h' ∧ (F a → Sub h h')) h := by
  obtain ⟨a, h', e, hQ⟩ := w
  exact ⟨a, h', e, hQ, q h a h' e⟩

/-- From containers in memory to containers of the program. -/
theorem Mv.num {f f' : Nat → Option Nat} {h h' : Heap V} {C C' : Nat → List Nat} (m : Mv f h C h' C')
    (hf : ∀ p q, f' p = some q → f (slot p) = some (slot q)) :
    Mv f' h (fun o => C (slot o)) h' (fun o => C' (slot o)) := fun p q e => m _ _ (hf p q e)

theorem off_slot {o p q : Nat} (e : off o p = some q) : off (slot o) (slot p) = some (slot q) := by
  simp only [off, slot] at *
  by_cases h : p = o
  · simp [h] at e
  · simp [h] at e ⊢; exact e

theorem fromTo_slot {r o p q : Nat} (e : fromTo r o p = some q) : fromTo (slot r) (slot o) (slot p) = some (slot q) := by
  simp only [fromTo, slot] at *
  by_cases h : p = r
  · simp [h] at e
  · by_cases h2 : p = o
    · subst h2; simp [h] at e ⊢; exact e
    · simp [h, h2] at e ⊢; exact e

theorem exch_slot {a b p q : Nat} (e : exch a b p = some q) : exch (slot a) (slot b) (slot p) = some (slot q) := by
  simp only [exch, slot] at *
  by_cases h : p = b
  · simp [h] at e ⊢; exact e
  · by_cases h2 : p = a
    · subst h2; simp [h] at e ⊢; exact e
    · simp [h, h2] at e ⊢; exact e

theorem upd_slot {α : Type} (L : Nat → α) (o p : Nat) (x : α) : upd L (slot o) x (slot p) = if p = o then x else L (slot p) := by
  by_cases e : p = o
  · subst e; simp
  · simp [upd, slot, e]

theorem exec_ok {α : Type} {m : Mem V} {p : Prog V α} {ini : Nat → Option V} {k : α → Out V} {Q : α → Heap V → Prop}
    (w : wp p Q m.heap) : ∃ a h, m.exec p ini k = .ok (⟨h, ini⟩, k a) ∧ Q a h := by
  obtain ⟨a, h, e, q⟩ := w
  exact ⟨a, h, by simp only [Mem.exec, e], q⟩

section
variable [DecidableEq V]

set_option maxHeartbeats 1000000 in
/-- Every call keeps memory and lists in agreement, and nodes go where `origin` says. -/
theorem step_addr (dv : V) {m : Mem V} {S S' : Objs V} {C : Nat → List Nat} {c : Call V} {out : Out V} (r : RelC m S C)
    (hs : listStep dv S c = .ok (S', out)) : ∃ m' C', memStep dv m c = .ok (m', out) ∧ RelC m' S' C' ∧
      Mv (origin c out.2) m.heap (fun o => C (slot o)) m'.heap (fun o => C' (slot o)) := by
  obtain ⟨hini, L, w, h0, hL⟩ := r
  have hne : ∀ o, slot o ≠ 0 := fun o => Nat.succ_ne_zero o
  have hslot : ∀ {a b : Nat}, a ≠ b → slot a ≠ slot b := fun h e => h (Nat.succ.inj e)
  cases c with
  | make o lo hg iv =>
    simp only [listStep, memStep] at hs ⊢
    cases ho : S o with
    | some x => rw [ho] at hs; cases hs
    | none =>
      rw [ho] at hs; cases hs
      have hi := hini o
      rw [ho] at hi
      simp only [Option.map_none] at hi
      rw [hi]
      have hLo : L (slot o) = [] := by rw [hL, ho]; rfl
      obtain ⟨a, h, e, C', q, mv⟩ := exec_ok (m := m) (ini := upd m.init o (some iv)) (k := fun _ => (none, false))
        (wl_construct w hLo dv lo hg iv)
      refine ⟨_, C', e, ⟨fun p => ?_, _, q, by simp [upd, Ne.symm (hne o), h0], fun p => ?_⟩, ?_⟩
      · by_cases ep : p = o
        · subst ep; simp
        · simp [upd, ep, hini]
      · rw [upd_slot]
        by_cases ep : p = o
        · subst ep; simp
        · simp [upd, ep, hL]
      · exact (mv.num fun _ _ => off_slot)
  | destroy o =>
    simp only [listStep, memStep] at hs ⊢
    cases ho : S o with
    | none => rw [ho] at hs; cases hs
    | some x =>
      rw [ho] at hs
      dsimp only at hs
      have hi := hini o
      rw [ho] at hi
      simp only [Option.map_some] at hi
      rw [hi]
      have hLo : L (slot o) = x.leaves := by rw [hL, ho]; rfl
      by_cases hl : x.leaves.length = 1
      · rw [if_pos hl] at hs; cases hs
      rw [if_neg hl] at hs; cases hs
      obtain ⟨a, h, e, C', q, mv⟩ := exec_ok (m := m) (ini := upd m.init o none) (k := fun _ => (none, false))
        (wl_destruct w (o := slot o) (by rw [hLo]; exact hl))
      refine ⟨_, C', e, ⟨fun p => ?_, _, q, by simp [upd, Ne.symm (hne o), h0], fun p => ?_⟩, ?_⟩
      · by_cases ep : p = o
        · subst ep; simp
        · simp [upd, ep, hini]
      · rw [upd_slot]
        by_cases ep : p = o
        · subst ep; simp
        · simp [upd, ep, hL]
      · exact (mv.num fun _ _ => off_slot)
  | copy o r =>
    simp only [listStep, memStep] at hs ⊢
    cases ho : S o with
    | some x => rw [ho] at hs; cases hs
    | none =>
      cases hr : S r with
      | none => rw [ho, hr] at hs; cases hs
      | some x =>
        rw [ho, hr] at hs
        dsimp only at hs
        have hi := hini o
        rw [ho] at hi
        simp only [Option.map_none] at hi
        have hi2 := hini r
        rw [hr] at hi2
        simp only [Option.map_some] at hi2
        rw [hi, hi2]
        have hor : o ≠ r := fun e => by rw [e, hr] at ho; cases ho
        have hLo : L (slot o) = [] := by rw [hL, ho]; rfl
        have hLr : L (slot r) = x.leaves := by rw [hL, hr]; rfl
        by_cases hl : x.leaves.length < 2
        · rw [if_pos hl] at hs; cases hs
        rw [if_neg hl] at hs; cases hs
        obtain ⟨a, h, e, C', q, mv⟩ := exec_ok (m := m) (ini := upd m.init o (some x.init)) (k := fun _ => (none, false))
          (wl_copy w hLo (hslot hor) (by rw [hLr]; omega))
        refine ⟨_, C', e, ⟨fun p => ?_, _, q, by simp [upd, Ne.symm (hne o), h0], fun p => ?_⟩, ?_⟩
        · by_cases ep : p = o
          · subst ep; simp
          · simp [upd, ep, hini]
        · rw [upd_slot]
          by_cases ep : p = o
          · subst ep; simp [hLr]
          · simp [upd, ep, hL]
        · exact (mv.num fun _ _ => off_slot)
  | move o r =>
    simp only [listStep, memStep] at hs ⊢
    cases ho : S o with
    | some x => rw [ho] at hs; cases hs
    | none =>
      cases hr : S r with
      | none => rw [ho, hr] at hs; cases hs
      | some x =>
        rw [ho, hr] at hs
        cases hs
        have hi := hini o
        rw [ho] at hi
        simp only [Option.map_none] at hi
        have hi2 := hini r
        rw [hr] at hi2
        simp only [Option.map_some] at hi2
        rw [hi, hi2]
        have hor : o ≠ r := fun e => by rw [e, hr] at ho; cases ho
        have hLo : L (slot o) = [] := by rw [hL, ho]; rfl
        have hLr : L (slot r) = x.leaves := by rw [hL, hr]; rfl
        obtain ⟨a, h, e, C', q, mv⟩ := exec_ok (m := m) (ini := upd m.init o (some x.init)) (k := fun _ => (none, false))
          (wl_move w hLo (hslot hor))
        refine ⟨_, C', e, ⟨fun p => ?_, _, q, by simp [upd, Ne.symm (hne o), Ne.symm (hne r), h0], fun p => ?_⟩, ?_⟩
        · by_cases ep : p = o
          · subst ep; simp [upd, hor]
          · by_cases ep2 : p = r
            · subst ep2; simp [upd, ep, hi2]
            · simp [upd, ep, ep2, hini]
        · rw [upd_slot, upd_slot]
          by_cases ep2 : p = r
          · subst ep2; simp
          · by_cases ep : p = o
            · subst ep; simp [upd, hor, hLr]
            · simp [upd, ep, ep2, hL]
        · exact (mv.num fun _ _ => fromTo_slot)
  | assignCopy o r =>
    simp only [listStep, memStep] at hs ⊢
    cases ho : S o with
    | none => rw [ho] at hs; cases hs
    | some y =>
      cases hr : S r with
      | none => rw [ho, hr] at hs; cases hs
      | some x =>
        rw [ho, hr] at hs
        dsimp only at hs
        have hi := hini o
        rw [ho] at hi
        simp only [Option.map_some] at hi
        have hi2 := hini r
        rw [hr] at hi2
        simp only [Option.map_some] at hi2
        rw [hi, hi2]
        have hLo : L (slot o) = y.leaves := by rw [hL, ho]; rfl
        have hLr : L (slot r) = x.leaves := by rw [hL, hr]; rfl
        by_cases hl : x.leaves.length < 2 ∨ y.leaves.length = 1
        · rw [if_pos hl] at hs; cases hs
        rw [if_neg hl] at hs; cases hs
        rw [not_or] at hl
        obtain ⟨a, h, e, C', q, mv⟩ := exec_ok (m := m) (ini := upd m.init o (some x.init)) (k := fun _ => (none, false))
          (wl_assignCopy w h0 (hne o) (hne r) (by rw [hLr]; omega) (by rw [hLo]; exact hl.2))
        refine ⟨_, C', e, ⟨fun p => ?_, _, q, by simp [upd, Ne.symm (hne o), h0], fun p => ?_⟩, ?_⟩
        · by_cases ep : p = o
          · subst ep; simp
          · simp [upd, ep, hini]
        · rw [upd_slot]
          by_cases ep : p = o
          · subst ep; simp [hLr]
          · simp [upd, ep, hL]
        · exact (mv.num fun p q e => by simpa [slot] using off_slot e)
  | assignMove o r =>
    simp only [listStep, memStep] at hs ⊢
    cases ho : S o with
    | none => rw [ho] at hs; cases hs
    | some y =>
      cases hr : S r with
      | none => rw [ho, hr] at hs; cases hs
      | some x =>
        rw [ho, hr] at hs
        dsimp only at hs
        have hi := hini o
        rw [ho] at hi
        simp only [Option.map_some] at hi
        have hi2 := hini r
        rw [hr] at hi2
        simp only [Option.map_some] at hi2
        rw [hi, hi2]
        have hLo : L (slot o) = y.leaves := by rw [hL, ho]; rfl
        have hLr : L (slot r) = x.leaves := by rw [hL, hr]; rfl
        by_cases hor : o = r
        · subst hor
          rw [if_pos rfl] at hs; cases hs
          obtain ⟨a, h, e, C', q, mv⟩ := exec_ok (m := m) (ini := upd m.init o (some x.init)) (k := fun _ => (none, false))
            (wl_assignMove w h0 (hne o) (hne o) (fun h => absurd rfl h))
          rw [if_pos rfl] at q
          refine ⟨_, C', e, ⟨fun p => ?_, _, q, h0, hL⟩, mv.num fun p q e => ?_⟩
          · by_cases ep : p = o
            · subst ep; simp [hr]
            · simp [upd, ep, hini]
          · simp only [origin, if_true, Option.some.injEq] at e
            simp [slot, e]
        · rw [if_neg hor] at hs
          by_cases hl : y.leaves.length = 1
          · rw [if_pos hl] at hs; cases hs
          rw [if_neg hl] at hs; cases hs
          obtain ⟨a, h, e, C', q, mv⟩ := exec_ok (m := m) (ini := upd m.init o (some x.init)) (k := fun _ => (none, false))
            (wl_assignMove w h0 (hne o) (hne r) (fun _ => by rw [hLo]; exact hl))
          rw [if_neg (hslot hor)] at q
          refine ⟨_, C', e, ⟨fun p => ?_, _, q, by simp [upd, Ne.symm (hne o), Ne.symm (hne r), h0], fun p => ?_⟩, ?_⟩
          · by_cases ep : p = o
            · subst ep; simp [upd, hor]
            · by_cases ep2 : p = r
              · subst ep2; simp [upd, ep, hi2]
              · simp [upd, ep, ep2, hini]
          · rw [upd_slot, upd_slot]
            by_cases ep2 : p = r
            · subst ep2; simp
            · by_cases ep : p = o
              · subst ep; simp [upd, hor, hLr]
              · simp [upd, ep, ep2, hL]
          · refine mv.num fun p q e => ?_
            simp only [origin, if_neg hor] at e
            rw [if_neg (hne p), if_neg (hslot hor)]
            exact fromTo_slot e
  | swap a b =>
    simp only [listStep, memStep] at hs ⊢
    cases ho : S a with
    | none => rw [ho] at hs; cases hs
    | some x =>
      cases hr : S b with
      | none => rw [ho, hr] at hs; cases hs
      | some y =>
        rw [ho, hr] at hs
        cases hs
        have hi := hini a
        rw [ho] at hi
        simp only [Option.map_some] at hi
        have hi2 := hini b
        rw [hr] at hi2
        simp only [Option.map_some] at hi2
        rw [hi, hi2]
        have hLo : L (slot a) = x.leaves := by rw [hL, ho]; rfl
        have hLr : L (slot b) = y.leaves := by rw [hL, hr]; rfl
        obtain ⟨_, h, e, C', q, mv⟩ := exec_ok (m := m) (ini := upd (upd m.init a (some y.init)) b (some x.init))
          (k := fun _ => (none, false)) (wl_swap w (slot a) (slot b))
        refine ⟨_, C', e, ⟨fun p => ?_, _, q, by simp [upd, Ne.symm (hne a), Ne.symm (hne b), h0], fun p => ?_⟩, ?_⟩
        · by_cases ep : p = b
          · subst ep; simp
          · by_cases ep2 : p = a
            · subst ep2; simp [upd, ep]
            · simp [upd, ep, ep2, hini]
        · rw [upd_slot, upd_slot]
          by_cases ep : p = b
          · subst ep; simp [hLo]
          · by_cases ep2 : p = a
            · subst ep2; simp [upd, ep, hLr]
            · simp [upd, ep, ep2, hL]
        · exact (mv.num fun _ _ => exch_slot)
  | clear o =>
    simp only [listStep, memStep] at hs ⊢
    cases ho : S o with
    | none => rw [ho] at hs; cases hs
    | some x =>
      rw [ho] at hs
      dsimp only at hs
      have hi := hini o
      rw [ho] at hi
      simp only [Option.map_some] at hi
      rw [hi]
      have hLo : L (slot o) = x.leaves := by rw [hL, ho]; rfl
      cases hc : clearList x.leaves x.init with
      | err e => rw [hc] at hs; cases hs
      | ub => rw [hc] at hs; cases hs
      | ok ls =>
        rw [hc] at hs; cases hs
        obtain ⟨a, h, e, C', q, mv⟩ := exec_ok (m := m) (ini := m.init) (k := fun _ => (none, false))
          (wl_clear w (o := slot o) (iv := x.init) (ls := ls) (by rw [hLo]; exact hc))
        refine ⟨_, C', e, ⟨fun p => ?_, _, q, by simp [upd, Ne.symm (hne o), h0], fun p => ?_⟩, ?_⟩
        · by_cases ep : p = o
          · subst ep; simp [hi]
          · simp [upd, ep, hini]
        · rw [upd_slot]
          by_cases ep : p = o
          · subst ep; simp
          · simp [upd, ep, hL]
        · exact (mv.num fun _ _ => off_slot)
  | insert o s e v fwd =>
    simp only [listStep, memStep] at hs ⊢
    cases ho : S o with
    | none => rw [ho] at hs; cases hs
    | some x =>
      rw [ho] at hs
      dsimp only at hs
      have hi := hini o
      rw [ho] at hi
      simp only [Option.map_some] at hi
      rw [hi]
      have hLo : L (slot o) = x.leaves := by rw [hL, ho]; rfl
      cases hc : insertSegment x.leaves s e v fwd with
      | err e => rw [hc] at hs; cases hs
      | ub => rw [hc] at hs; cases hs
      | ok r =>
        rw [hc] at hs; cases hs
        obtain ⟨a, h, e, ⟨rfl, C', q, mv⟩, hsub⟩ := exec_ok (m := m) (ini := m.init) (k := id)
          (wp_quiet (wl_insert w (o := slot o) (r := r) (by rw [hLo]; exact hc)) (quiet_insertP _ _ _ _ _))
        refine ⟨_, C', e, ⟨fun p => ?_, _, q, by simp [upd, Ne.symm (hne o), h0], fun p => ?_⟩, ?_⟩
        · by_cases ep : p = o
          · subst ep; simp [hi]
          · simp [upd, ep, hini]
        · rw [upd_slot]
          by_cases ep : p = o
          · subst ep; simp
          · simp [upd, ep, hL]
        · cases hf : r.changed with
          | true => simp only [origin, hf, if_true]; exact mv.num fun _ _ => off_slot
          | false =>
            simp only [origin, hf, Bool.false_eq_true, if_false]
            exact ((hsub hf).mv w q).num fun _ _ e => by cases e; rfl

  | insertAt o hint s e v =>
    simp only [listStep, memStep] at hs ⊢
    cases ho : S o with
    | none => rw [ho] at hs; cases hs
    | some x =>
      rw [ho] at hs
      dsimp only at hs
      have hi := hini o
      rw [ho] at hi
      simp only [Option.map_some] at hi
      rw [hi]
      have hLo : L (slot o) = x.leaves := by rw [hL, ho]; rfl
      cases hc : insertHint x.leaves hint s e v with
      | err e => rw [hc] at hs; cases hs
      | ub => rw [hc] at hs; cases hs
      | ok r =>
        rw [hc] at hs; cases hs
        obtain ⟨a, h, e, ⟨rfl, C', q, mv⟩, hsub⟩ := exec_ok (m := m) (ini := m.init) (k := id)
          (wp_quiet (wl_insertAt w (o := slot o) (r := r) (by rw [hLo]; exact hc)) (quiet_insertAtP _ _ _ _ _))
        refine ⟨_, C', e, ⟨fun p => ?_, _, q, by simp [upd, Ne.symm (hne o), h0], fun p => ?_⟩, ?_⟩
        · by_cases ep : p = o
          · subst ep; simp [hi]
          · simp [upd, ep, hini]
        · rw [upd_slot]
          by_cases ep : p = o
          · subst ep; simp
          · simp [upd, ep, hL]
        · cases hf : r.changed with
          | true => simp only [origin, hf, if_true]; exact mv.num fun _ _ => off_slot
          | false =>
            simp only [origin, hf, Bool.false_eq_true, if_false]
            exact ((hsub hf).mv w q).num fun _ _ e => by cases e; rfl

  | shiftLeft o s e =>
    simp only [listStep, memStep] at hs ⊢
    cases ho : S o with
    | none => rw [ho] at hs; cases hs
    | some x =>
      rw [ho] at hs
      dsimp only at hs
      have hi := hini o
      rw [ho] at hi
      simp only [Option.map_some] at hi
      rw [hi]
      have hLo : L (slot o) = x.leaves := by rw [hL, ho]; rfl
      cases hc : shiftLeftLeaves x.leaves x.init s e with
      | err e => rw [hc] at hs; cases hs
      | ub => rw [hc] at hs; cases hs
      | ok r =>
        rw [hc] at hs; cases hs
        obtain ⟨a, h, e, ⟨rfl, C', q, mv⟩, hsub⟩ := exec_ok (m := m) (ini := m.init) (k := fun b => (none, b))
          (wp_quiet (wl_shiftLeft w (o := slot o) (iv := x.init) (ls := r.1) (b := r.2) (by rw [hLo]; exact hc)) (quiet_shiftLeftP _ _ _ _))
        refine ⟨_, C', e, ⟨fun p => ?_, _, q, by simp [upd, Ne.symm (hne o), h0], fun p => ?_⟩, ?_⟩
        · by_cases ep : p = o
          · subst ep; simp [hi]
          · simp [upd, ep, hini]
        · rw [upd_slot]
          by_cases ep : p = o
          · subst ep; simp
          · simp [upd, ep, hL]
        · cases hf : r.2 with
          | false => simp only [origin, hf, Bool.false_eq_true, if_false]; exact mv.num fun _ _ => off_slot
          | true =>
            simp only [origin, hf, if_true]
            exact ((hsub hf).mv w q).num fun _ _ e => by cases e; rfl

  | shiftRight o pos size skip =>
    simp only [listStep, memStep] at hs ⊢
    cases ho : S o with
    | none => rw [ho] at hs; cases hs
    | some x =>
      rw [ho] at hs
      dsimp only at hs
      have hi := hini o
      rw [ho] at hi
      simp only [Option.map_some] at hi
      rw [hi]
      have hLo : L (slot o) = x.leaves := by rw [hL, ho]; rfl
      cases hc : shiftRightLeaves x.leaves x.init pos size skip with
      | err e => rw [hc] at hs; cases hs
      | ub => rw [hc] at hs; cases hs
      | ok r =>
        rw [hc] at hs; cases hs
        obtain ⟨a, h, e, ⟨rfl, C', q, mv⟩, hsub⟩ := exec_ok (m := m) (ini := m.init) (k := fun b => (none, b))
          (wp_quiet (wl_shiftRight w (o := slot o) (iv := x.init) (ls := r.1) (b := r.2) (by rw [hLo]; exact hc)) (quiet_shiftRightP _ _ _ _ _))
        refine ⟨_, C', e, ⟨fun p => ?_, _, q, by simp [upd, Ne.symm (hne o), h0], fun p => ?_⟩, ?_⟩
        · by_cases ep : p = o
          · subst ep; simp [hi]
          · simp [upd, ep, hini]
        · rw [upd_slot]
          by_cases ep : p = o
          · subst ep; simp
          · simp [upd, ep, hL]
        · cases hf : r.2 with
          | false => simp only [origin, hf, Bool.false_eq_true, if_false]; exact mv.num fun _ _ => off_slot
          | true =>
            simp only [origin, hf, if_true]
            exact ((hsub hf).mv w q).num fun _ _ e => by cases e; rfl

/-- Every call keeps memory and lists in agreement. -/
theorem step_rel (dv : V) {m : Mem V} {S S' : Objs V} {c : Call V} {out : Out V} (r : Rel m S)
    (hs : listStep dv S c = .ok (S', out)) : ∃ m', memStep dv m c = .ok (m', out) ∧ Rel m' S' := by
  obtain ⟨C, r⟩ := r
  obtain ⟨m', C', e, r', -⟩ := step_addr dv r hs
  exact ⟨m', e, C', r'⟩

theorem run_rel (dv : V) (cs : List (Call V)) : ∀ {m : Mem V} {S S' : Objs V} {outs : List (Out V)}, Rel m S →
    listRun dv S cs = .ok (S', outs) → ∃ m', memRun dv m cs = .ok (m', outs) ∧ Rel m' S' := by
  induction cs with
  | nil => intro m S S' outs r h; cases h; exact ⟨m, rfl, r⟩
  | cons c cs ih =>
    intro m S S' outs r h
    unfold listRun at h
    cases h1 : listStep dv S c with
    | err e => rw [h1] at h; cases h
    | ub => rw [h1] at h; cases h
    | ok p =>
      obtain ⟨S1, o⟩ := p
      rw [h1] at h
      dsimp only at h
      obtain ⟨m1, e1, r1⟩ := step_rel dv r h1
      cases h2 : listRun dv S1 cs with
      | err e => rw [h2] at h; cases h
      | ub => rw [h2] at h; cases h
      | ok p =>
        obtain ⟨S2, os⟩ := p
        rw [h2] at h; cases h
        obtain ⟨m2, e2, r2⟩ := ih r1 h2
        exact ⟨m2, by simp only [memRun, e1, e2], r2⟩

end

theorem rel_start (dv : V) : Rel (Mem.start : Mem V) (fun _ => none) :=
  ⟨_, fun _ => rfl, _, wl_empty dv, rfl, fun _ => rfl⟩

end Mdds.FST.Mem
