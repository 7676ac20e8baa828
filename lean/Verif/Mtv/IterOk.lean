import Verif.Mtv.IterSteps
import Verif.Mtv.PairHistory

/-!
# multi_type_vector iterators: programs
-/

namespace Mdds.Mtv.Iter
open Mdds

variable {α : Type} [DecidableEq α]

/-- The step answers as wanted and keeps the relation. -/
def StepOk (w : World α) (u : SWorld α) (c : Cmd α) : Prop :=
  ∃ w', w.step c = .ok (w', (u.step c).2) ∧ Rep w' (u.step c).1

omit [DecidableEq α] in
theorem put_some {τ : Type} {f : Nat → Option τ} {i : Nat} {x : Option τ} {j : Nat} {t : τ} (h : put f i x j = some t) :
    (j = i ∧ x = some t) ∨ (j ≠ i ∧ f j = some t) := by
  unfold put at h
  split at h <;> rename_i hj
  · exact .inl ⟨hj, h⟩
  · exact .inr ⟨hj, h⟩

theorem put_same {τ : Type} (f : Nat → Option τ) (i : Nat) (x : Option τ) : put f i x i = x := if_pos rfl

theorem put_other {τ : Type} (f : Nat → Option τ) {i j : Nat} (x : Option τ) (h : j ≠ i) : put f i x j = f j := if_neg h

theorem make_step {w : World α} {u : SWorld α} (h : Rep w u) (c : Nat) (k : Ctor α) (hl : u.ctrs c = none) :
    StepOk w u (.make c k) := by
  have hw : w.ctrs c = none := by rw [h.ctrs, hl]; rfl
  have hkn : k.run ≠ .ub := by
    cases k with
    | range n ty vs => simp only [Ctor.run, mkRange]; repeat' split
                       all_goals simp
    | _ => simp [Ctor.run]
  unfold StepOk
  cases hk : k.run with
  | ub => exact absurd hk hkn
  | err e => exact ⟨w, by simp [World.step, SWorld.step, hw, hk], by simpa [SWorld.step, hk] using h⟩
  | ok s =>
    simp only [World.step, SWorld.step, hw, hk]
    refine ⟨_, rfl, ?_⟩
    simp only [h.stores, h.next]
    refine h.change (fun d => ?_) (Nat.le_succ _) ?_ ?_ ?_ ?_
    · simp only [put]; split
      · rfl
      · exact h.ctrs d
    · intro a s' ha e
      rw [put_other _ _ (by omega)] at e
      exact ⟨s', e, rfl⟩
    · intro a s' e
      rcases put_some e with ⟨rfl, -⟩ | ⟨-, e⟩
      · omega
      · have := h.low _ _ e; omega
    · intro d a b e
      rcases put_some e with ⟨-, e⟩ | ⟨-, e⟩
      · simp only [Option.some.injEq, Prod.mk.injEq] at e
        obtain ⟨rfl, rfl⟩ := e
        exact ⟨s, put_same _ _ _, fun _ => wf_weaken (ctor_wf k hk)⟩
      · obtain ⟨t, ht, hr⟩ := h.live _ _ _ e
        exact ⟨t, by rw [put_other _ _ (by have := h.low _ _ ht; omega)]; exact ht, hr⟩
    · intro d e a b b' h1 h2
      rcases put_some h1 with ⟨e1, h1⟩ | ⟨-, h1⟩ <;> rcases put_some h2 with ⟨e2, h2⟩ | ⟨-, h2⟩
      · omega
      · simp only [Option.some.injEq, Prod.mk.injEq] at h1
        obtain ⟨t, ht, -⟩ := h.live _ _ _ h2
        have := h.low _ _ ht; omega
      · simp only [Option.some.injEq, Prod.mk.injEq] at h2
        obtain ⟨t, ht, -⟩ := h.live _ _ _ h1
        have := h.low _ _ ht; omega
      · exact h.inj _ _ _ _ _ h1 h2

omit [DecidableEq α] in
theorem destroy_step {w : World α} {u : SWorld α} (h : Rep w u) (c : Nat) (hl : u.ctrs c ≠ none) : StepOk w u (.destroy c) := by
  obtain ⟨a, b, s, hc, hs, -, hw, hws, -, ha⟩ := h.ctr hl
  unfold StepOk
  simp only [World.step, SWorld.step, hws, hc]
  refine ⟨_, rfl, ?_⟩
  simp only [h.stores]
  have := h.change (S := put u.stores a none) (C := put w.ctrs c none) (D := put u.ctrs c none) (n := u.next)
    (fun d => ?_) (Nat.le_refl _) ?_ ?_ ?_ ?_
  · rw [← h.next] at this ⊢; exact this
  · simp only [put]; split
    · rfl
    · exact h.ctrs d
  · intro a' s' _ e
    rcases put_some e with ⟨-, e⟩ | ⟨-, e⟩
    · cases e
    · exact ⟨s', e, rfl⟩
  · intro a' s' e
    rcases put_some e with ⟨-, e⟩ | ⟨-, e⟩
    · cases e
    · exact h.low _ _ e
  · intro d a' b' e
    rcases put_some e with ⟨-, e⟩ | ⟨hd, e⟩
    · cases e
    · obtain ⟨t, ht, hr⟩ := h.live _ _ _ e
      refine ⟨t, ?_, hr⟩
      rw [put_other _ _ (fun e' => hd (h.inj _ _ _ _ _ (e' ▸ e) hc))]
      exact ht
  · intro d e a' b' b'' h1 h2
    rcases put_some h1 with ⟨-, h1⟩ | ⟨-, h1⟩
    · cases h1
    · rcases put_some h2 with ⟨-, h2⟩ | ⟨-, h2⟩
      · cases h2
      · exact h.inj _ _ _ _ _ h1 h2

omit [DecidableEq α] in
theorem swap_step {w : World α} {u : SWorld α} (h : Rep w u) (c d : Nat) (h1 : u.ctrs c ≠ none) (h2 : u.ctrs d ≠ none) :
    StepOk w u (.swap c d) := by
  obtain ⟨a, b, s, hc, hs, hr, hw, -⟩ := h.ctr h1
  obtain ⟨a', b', s', hc', hs', hr', hw', -⟩ := h.ctr h2
  unfold StepOk
  simp only [World.step, SWorld.step, hw, hw']
  refine ⟨_, rfl, ?_⟩
  have := h.change (S := u.stores) (C := put (put w.ctrs c (some a')) d (some a))
    (D := put (put u.ctrs c (some (a', b'))) d (some (a, b))) (n := u.next)
    (fun e => ?_) (Nat.le_refl _) (fun a s' _ e => ⟨s', e, rfl⟩) h.low ?_ ?_
  · rw [← h.next, ← h.stores] at this; rw [hc, hc', ← h.next, ← h.stores]; exact this
  · simp only [put]; split
    · rfl
    · split
      · rfl
      · exact h.ctrs e
  · intro e x y he
    rcases put_some he with ⟨-, he⟩ | ⟨-, he⟩
    · cases he; exact ⟨s, hs, hr⟩
    · rcases put_some he with ⟨-, he⟩ | ⟨-, he⟩
      · cases he; exact ⟨s', hs', hr'⟩
      · exact h.live _ _ _ he
  · intro e f x y z he hf
    rcases put_some he with ⟨e1, he⟩ | ⟨n1, he⟩
    · cases he
      rcases put_some hf with ⟨e2, hf⟩ | ⟨n2, hf⟩
      · omega
      · rcases put_some hf with ⟨e3, hf⟩ | ⟨n3, hf⟩
        · cases hf; have := h.inj _ _ _ _ _ hc hc'; omega
        · exact absurd (h.inj _ _ _ _ _ hf hc) n3
    · rcases put_some he with ⟨e1, he⟩ | ⟨n1', he⟩
      · cases he
        rcases put_some hf with ⟨e2, hf⟩ | ⟨n2, hf⟩
        · cases hf; have := h.inj _ _ _ _ _ hc hc'; omega
        · rcases put_some hf with ⟨e3, hf⟩ | ⟨n3, hf⟩
          · omega
          · exact absurd (h.inj _ _ _ _ _ hf hc') n2
      · rcases put_some hf with ⟨e2, hf⟩ | ⟨n2, hf⟩
        · cases hf; exact absurd (h.inj _ _ _ _ _ he hc) n1'
        · rcases put_some hf with ⟨e3, hf⟩ | ⟨n3, hf⟩
          · cases hf; exact absurd (h.inj _ _ _ _ _ he hc') n1
          · exact h.inj _ _ _ _ _ he hf

omit [DecidableEq α] in
/-- The store of `d` goes to `c`, `d` gets a new one; the store `gone` ends. -/
theorem give_ok {w : World α} {u : SWorld α} (h : Rep w u) {c d a : Nat} {b : Bool} {s t : St α} (hcd : c ≠ d)
    (hd : u.ctrs d = some (a, b)) (hs : u.stores a = some s) (hr : b = true → WF Weak s) (S : Nat → Option (St α))
    (hS : ∀ x y, S x = some y → u.stores x = some y) (hS' : ∀ e x y, e ≠ c → u.ctrs e = some (x, y) → S x = u.stores x) :
    Rep { w with ctrs := put (put w.ctrs c (some a)) d (some u.next), stores := put S u.next (some t), next := u.next + 1 }
      { u with ctrs := put (put u.ctrs c (some (a, b))) d (some (u.next, false)), stores := put S u.next (some t),
               next := u.next + 1 } := by
  refine h.change (fun e => ?_) (Nat.le_succ _) ?_ ?_ ?_ ?_
  · simp only [put]; split
    · rfl
    · split
      · rfl
      · exact h.ctrs e
  · intro x y hx e
    rw [put_other _ _ (by omega)] at e
    exact ⟨y, hS _ _ e, rfl⟩
  · intro x y e
    rcases put_some e with ⟨rfl, -⟩ | ⟨-, e⟩
    · omega
    · have := h.low _ _ (hS _ _ e); omega
  · intro e x y he
    rcases put_some he with ⟨-, he⟩ | ⟨-, he⟩
    · cases he; exact ⟨t, put_same _ _ _, fun e => by cases e⟩
    · rcases put_some he with ⟨-, he⟩ | ⟨hn, he⟩
      · cases he
        exact ⟨s, by rw [put_other _ _ (by have := h.low _ _ hs; omega), hS' d a b (Ne.symm hcd) hd]; exact hs, hr⟩
      · obtain ⟨z, hz, hzr⟩ := h.live _ _ _ he
        exact ⟨z, by rw [put_other _ _ (by have := h.low _ _ hz; omega), hS' _ _ _ hn he]; exact hz, hzr⟩
  · have hlow : ∀ {e x y}, u.ctrs e = some (x, y) → x < u.next := fun he => by
      obtain ⟨z, hz, -⟩ := h.live _ _ _ he; exact h.low _ _ hz
    intro e f x y z he hf
    rcases put_some he with ⟨e1, he⟩ | ⟨n1, he⟩
    · cases he
      rcases put_some hf with ⟨e2, hf⟩ | ⟨n2, hf⟩
      · omega
      · rcases put_some hf with ⟨e3, hf⟩ | ⟨n3, hf⟩
        · cases hf; have := hlow hd; omega
        · have := hlow hf; omega
    · rcases put_some he with ⟨e1, he⟩ | ⟨n1', he⟩
      · cases he
        rcases put_some hf with ⟨e2, hf⟩ | ⟨n2, hf⟩
        · cases hf; have := hlow hd; omega
        · rcases put_some hf with ⟨e3, hf⟩ | ⟨n3, hf⟩
          · omega
          · exact absurd (h.inj _ _ _ _ _ hf hd) n2
      · rcases put_some hf with ⟨e2, hf⟩ | ⟨n2, hf⟩
        · cases hf; have := hlow he; omega
        · rcases put_some hf with ⟨e3, hf⟩ | ⟨n3, hf⟩
          · cases hf; exact absurd (h.inj _ _ _ _ _ he hd) n1
          · exact h.inj _ _ _ _ _ he hf

omit [DecidableEq α] in
theorem moveNew_step {w : World α} {u : SWorld α} (h : Rep w u) (c d : Nat) (h1 : u.ctrs c = none) (h2 : u.ctrs d ≠ none) :
    StepOk w u (.moveNew c d) := by
  have hw : w.ctrs c = none := by rw [h.ctrs, h1]; rfl
  obtain ⟨a, b, s, hd, hs, hr, -, hws, hus, -⟩ := h.ctr h2
  unfold StepOk
  simp only [World.step, SWorld.step, hw, hws, hus]
  refine ⟨_, rfl, ?_⟩
  simp only [h.stores, h.next]
  exact give_ok h (fun e => h2 (by rw [← e]; exact h1)) hd hs hr _ (fun _ _ e => e) (fun _ _ _ _ _ => rfl)

omit [DecidableEq α] in
theorem moveTo_step {w : World α} {u : SWorld α} (h : Rep w u) (c d : Nat) (h1 : u.ctrs c ≠ none) (h2 : u.ctrs d ≠ none) :
    StepOk w u (.moveTo c d) := by
  obtain ⟨a, b, s, hc, hs, hr, -, hws, hus, -⟩ := h.ctr h1
  obtain ⟨a', b', s', hd, hs', hr', -, hws', hus', -⟩ := h.ctr h2
  by_cases hcd : c = d
  · exact ⟨w, by simp only [World.step, SWorld.step, hws, hws', if_pos hcd], by simpa only [SWorld.step, if_pos hcd] using h⟩
  · unfold StepOk
    simp only [World.step, SWorld.step, hws, hws', hus, hus', if_neg hcd]
    refine ⟨_, rfl, ?_⟩
    simp only [h.stores, h.next]
    refine give_ok h hcd hd hs' hr' _ ?_ ?_
    · intro x y e
      rcases put_some e with ⟨-, e⟩ | ⟨-, e⟩
      · cases e
      · exact e
    · intro e x y he hx
      exact put_other _ _ (fun e' => he (h.inj _ _ _ _ _ (e' ▸ hx) hc))

omit [DecidableEq α] in
/-- The hint an iterator gives. -/
theorem hint_ok {w : World α} {u : SWorld α} (h : Rep w u) (c : Nat) {L : List (Cell α)} {hint : Option Nat}
    (hh : u.HintOk L hint) : ∃ at_ : At, w.hint c hint = some at_ ∧ (at_ ≠ none → L ≠ []) := by
  cases hint with
  | none => exact ⟨none, rfl, fun e => absurd rfl e⟩
  | some i =>
    obtain ⟨⟨y, hy, -⟩, hL⟩ := hh i rfl
    obtain ⟨x, hx, -⟩ := h.it hy
    simp only [World.hint, hx, Option.map_some]
    exact ⟨_, rfl, fun _ => hL⟩

/-- The iterator a call returns is at a block or at the end. -/
theorem ret_le {s s' : St α} (hs : WF Weak s) {f : Call α} (hd : f.Defined (contents s)) {r : Ret α}
    (hr : f.run s = .ok (r, s')) {k : Nat} (hk : r.idx = some k) : k ≤ s'.blocks.length := by
  have hc := call_spec_wf hs f hd
  split at hc
  · obtain ⟨r', s1, h1, -, -, h2⟩ := hc
    rw [hr] at h1; cases h1
    have hp : ∀ {p}, pointsTo s' k p → k ≤ s'.blocks.length := fun ⟨b, hb, _⟩ => by
      have := (List.getElem?_eq_some_iff.1 hb).1; omega
    cases f <;> cases r <;> simp only [Call.RetOk, Ret.idx, Option.some.injEq, reduceCtorEq] at h2 hk <;> subst hk
    all_goals first
      | exact hp h2
      | exact hp h2.1
      | (split at h2
         · omega
         · exact hp h2)
  · rw [hr] at hc; cases hc

omit [DecidableEq α] in
/-- The container `c` after a call that ended in `s'`, in place or with a new store. -/
theorem commit_ok {w : World α} {u : SWorld α} (h : Rep w u) {c a : Nat} {s s' : St α} (hc : u.ctrs c = some (a, true))
    (hs : u.stores a = some s) (hr' : WF Weak s') (same : Bool) (hsame : same = true → s'.blocks.length = s.blocks.length) :
    Rep (w.commit c a same s').1
      (if same then { u with stores := put u.stores a (some s') }
       else { u with stores := put (put u.stores a none) u.next (some s'), ctrs := put u.ctrs c (some (u.next, true)),
                     next := u.next + 1 }) ∧
    (if same then a else u.next) = (w.commit c a same s').2 := by
  have ha := h.low _ _ hs
  cases same
  · simp only [World.commit, Bool.false_eq_true, if_false, h.next, h.stores, and_true]
    refine h.change (fun d => ?_) (Nat.le_succ _) ?_ ?_ ?_ ?_
    · simp only [put]; split
      · rfl
      · exact h.ctrs d
    · intro x y hx e
      rw [put_other _ _ (by omega)] at e
      rcases put_some e with ⟨-, e⟩ | ⟨-, e⟩
      · cases e
      · exact ⟨y, e, rfl⟩
    · intro x y e
      rcases put_some e with ⟨rfl, -⟩ | ⟨-, e⟩
      · omega
      · rcases put_some e with ⟨-, e⟩ | ⟨-, e⟩
        · cases e
        · have := h.low _ _ e; omega
    · intro d x y e
      rcases put_some e with ⟨-, e⟩ | ⟨hn, e⟩
      · cases e; exact ⟨s', put_same _ _ _, fun _ => hr'⟩
      · obtain ⟨t, ht, htr⟩ := h.live _ _ _ e
        refine ⟨t, ?_, htr⟩
        rw [put_other _ _ (by have := h.low _ _ ht; omega), put_other _ _ (fun e' => hn (h.inj _ _ _ _ _ (e' ▸ e) hc))]
        exact ht
    · intro d e x y z h1 h2
      rcases put_some h1 with ⟨e1, h1⟩ | ⟨-, h1⟩ <;> rcases put_some h2 with ⟨e2, h2⟩ | ⟨-, h2⟩
      · omega
      · cases h1; obtain ⟨t, ht, -⟩ := h.live _ _ _ h2; have := h.low _ _ ht; omega
      · cases h2; obtain ⟨t, ht, -⟩ := h.live _ _ _ h1; have := h.low _ _ ht; omega
      · exact h.inj _ _ _ _ _ h1 h2
  · simp only [World.commit, if_true, h.stores, and_true]
    have := h.change (S := put u.stores a (some s')) (C := w.ctrs) (D := u.ctrs) (n := u.next) h.ctrs (Nat.le_refl _)
      ?_ ?_ ?_ h.inj
    · rw [← h.next] at this ⊢; exact this
    · intro x y _ e
      rcases put_some e with ⟨hx, e⟩ | ⟨-, e⟩
      · cases e; exact ⟨s, by rw [hx]; exact hs, hsame rfl⟩
      · exact ⟨y, e, rfl⟩
    · intro x y e
      rcases put_some e with ⟨rfl, e⟩ | ⟨-, e⟩
      · exact ha
      · exact h.low _ _ e
    · intro d x y e
      by_cases hx : x = a
      · subst hx; exact ⟨s', put_same _ _ _, fun _ => hr'⟩
      · rw [put_other _ _ hx]; exact h.live _ _ _ e

theorem call_step {w : World α} {u : SWorld α} (h : Rep w u) (c : Nat) (f : Call α) (hint ret : Option Nat)
    (hl : u.Legal (.call c f hint ret)) : StepOk w u (.call c f hint ret) := by
  obtain ⟨a, s, hst, hd, hh⟩ := hl
  obtain ⟨hc, hs⟩ := store_ctr hst
  obtain ⟨a1, b1, s1, hc1, hs1, hr, hwc, hws, -, ha⟩ := h.ctr (c := c) (by rw [hc]; simp)
  rw [hc] at hc1; cases hc1
  rw [hs] at hs1; cases hs1
  have hr := hr rfl
  obtain ⟨at_, hat, hL⟩ := hint_ok h c hh
  have hrun := withAt_run hr f at_ hL
  have hspec := call_spec_wf hr f.plain hd
  unfold StepOk
  simp only [World.step, World.doCall, hws, hat, hrun, SWorld.step, SWorld.doCall, hst]
  cases hf : f.plain.run s with
  | ub =>
    rw [hf] at hspec
    split at hspec
    · obtain ⟨_, _, h1, _⟩ := hspec; cases h1
    · cases hspec
  | err e s' =>
    have : s' = s := by
      rw [hf] at hspec
      split at hspec
      · obtain ⟨_, _, h1, _⟩ := hspec; cases h1
      · cases hspec; rfl
    subst this
    refine ⟨_, rfl, ?_⟩
    have hput : put w.stores a (some s') = w.stores := by
      funext x; simp only [put]; split
      · rename_i hx; rw [hx, h.stores, hs]
      · rfl
    simp only [hput]
    exact h
  | ok p =>
    obtain ⟨r, s'⟩ := p
    have hr' : WF Weak s' := wf_call hr f.plain hd hf
    obtain ⟨hrep, haddr⟩ := commit_ok h hc hs hr' (inPlace s f) (fun e => inPlace_length hr e hf)
    simp only
    rcases hw' : w.commit c a (inPlace s f) s' with ⟨w1, a1⟩
    rw [hw'] at hrep haddr
    simp only at hrep haddr ⊢
    generalize hu1 : (if inPlace s f = true then { u with stores := put u.stores a (some s') }
           else { u with stores := put (put u.stores a none) u.next (some s'), ctrs := put u.ctrs c (some (u.next, true)),
                         next := u.next + 1 } : SWorld α) = u1 at hrep ⊢
    cases ret with
    | none => exact ⟨w1, rfl, hrep⟩
    | some i =>
      cases hk : r.idx with
      | none => exact ⟨w1, rfl, hrep⟩
      | some k =>
        have hus : u1.stores a1 = some s' := by
          rw [← hu1, ← haddr]
          cases inPlace s f
          · exact put_same _ _ _
          · exact put_same _ _ _
        obtain ⟨it, hit, hrit⟩ := get_ok (n := u1.next) hus (hrep.low _ _ hus) false c (ret_le hr hd hf hk)
        simp only [World.keep, hit, Option.map_some]
        refine ⟨_, rfl, ?_⟩
        rw [haddr]
        exact hrep.set i hrit

theorem position_step {w : World α} {u : SWorld α} (h : Rep w u) (c : Nat) (const : Bool) (pos : Nat) (hint : Option Nat) (ret : Nat)
    (hl : u.Legal (.position c const pos hint ret)) : StepOk w u (.position c const pos hint ret) := by
  obtain ⟨a, s, hst, hh⟩ := hl
  obtain ⟨hc, hs⟩ := store_ctr hst
  obtain ⟨a1, b1, s1, hc1, hs1, hr, hwc, hws, -, ha⟩ := h.ctr (c := c) (by rw [hc]; simp)
  rw [hc] at hc1; cases hc1
  rw [hs] at hs1; cases hs1
  have hr := hr rfl
  obtain ⟨at_, hat, hL⟩ := hint_ok h c hh
  have hrun := position_run hr at_ hL pos
  have hw := hr
  have hcases : (∃ k off, Mtv.position none pos s = .ok ((k, off), s) ∧ k ≤ s.blocks.length) ∨
      ∃ e, Mtv.position none pos s = .err e s := by
    simp only [Mtv.position, bind_apply, curSize_ap, nBlocks_ap, obind_ok]
    by_cases hp : pos = s.cur
    · rw [if_pos hp]; exact .inl ⟨_, _, rfl, Nat.le_refl _⟩
    · rw [if_neg hp]
      by_cases hlt : pos < s.cur
      · obtain ⟨pre, b, post, off, e, -, -, hlk, hne⟩ := lookup_in hw none hlt
        have hb : s.blocks[pre.length]? = some b := by rw [e]; simp
        simp only [bind_apply, hlk, obind_ok, if_neg hne, getB_ap, hb]
        exact .inl ⟨_, _, rfl, by rw [e]; simp⟩
      · have hlk := lookup_out (pos := pos) hw none (by omega) (.inl rfl)
        simp only [bind_apply, hlk, obind_ok, if_true]
        exact .inr ⟨_, rfl⟩
  unfold StepOk
  simp only [World.step, hws, hat, hrun, SWorld.step, hst]
  rcases hcases with ⟨k, off, hp, hk⟩ | ⟨e, hp⟩
  · obtain ⟨it, hit, hrit⟩ := get_ok hs ha const c hk
    simp only [hp, World.keep, hit, Option.map_some]
    exact ⟨_, rfl, h.set ret hrit⟩
  · simp only [hp]
    exact ⟨_, rfl, h⟩

/-! ### Two containers -/

omit [DecidableEq α] in
/-- A container gets a new store. -/
theorem renew_ok {w : World α} {u : SWorld α} (h : Rep w u) {c a : Nat} {s s' : St α} (hc : u.ctrs c = some (a, true))
    (hs : u.stores a = some s) (hr' : WF Weak s') :
    Rep (w.commit c a false s').1 (u.renew c s') ∧ (w.commit c a false s').2 = u.next := by
  obtain ⟨h1, h2⟩ := commit_ok h hc hs hr' false (fun e => by cases e)
  refine ⟨?_, h2.symm⟩
  simp only [SWorld.renew, hc]
  exact h1

omit [DecidableEq α] in
theorem renew_other {u : SWorld α} {c d a b : Nat} {s : St α} {x y : Bool} (hcd : c ≠ d) (hc : u.ctrs c = some (a, x))
    (hd : u.ctrs d = some (b, y)) (hab : b ≠ a) (hlt : b < u.next) :
    (u.renew c s).ctrs d = some (b, y) ∧ (u.renew c s).stores b = u.stores b := by
  simp only [SWorld.renew, hc]
  exact ⟨(put_other _ _ (Ne.symm hcd)).trans hd, (put_other _ _ (by omega)).trans (put_other _ _ hab)⟩

omit [DecidableEq α] in
/-- A call on two containers that ended normally. -/
theorem both_ok {w : World α} {u : SWorld α} (h : Rep w u) {c d a b : Nat} {s t s' t' : St α} (hcd : c ≠ d)
    (hc : u.ctrs c = some (a, true)) (hd : u.ctrs d = some (b, true)) (hs : u.stores a = some s) (ht : u.stores b = some t)
    (hs' : WF Weak s') (ht' : WF Weak t') (ret r : Option Nat) (hr : ∀ k, r = some k → k ≤ s'.blocks.length) :
    ∃ w', w.both c d a b ret (.ok r s' t') = .ok (w', .unit) ∧
      Rep w' (match ret, r with
        | some i, some k => ((u.renew c s').renew d t').setIt i (place s' false false (some c) u.next k)
        | _, _ => (u.renew c s').renew d t') := by
  have hab : b ≠ a := fun e => hcd (h.inj _ _ _ _ _ hc (e ▸ hd))
  obtain ⟨h1, ha1⟩ := renew_ok h hc hs hs'
  obtain ⟨hd1, ht1⟩ := renew_other (s := s') hcd hc hd hab (h.low _ _ ht)
  obtain ⟨h2, -⟩ := renew_ok h1 hd1 (ht1.trans ht) ht'
  have hst : ((u.renew c s').renew d t').stores u.next = some s' := by
    have hb := h.low _ _ ht
    simp only [SWorld.renew, hc, put_other _ _ (Ne.symm hcd), hd]
    refine (put_other _ _ (by omega)).trans ((put_other _ _ (by omega)).trans (put_same _ _ _))
  simp only [World.both]
  cases ret with
  | none => exact ⟨_, rfl, h2⟩
  | some i =>
    cases r with
    | none => exact ⟨_, rfl, h2⟩
    | some k =>
      obtain ⟨it, hit, hrit⟩ := get_ok hst (h2.low _ _ hst) false c (hr k rfl)
      rw [ha1]
      simp only [World.keep, hit, Option.map_some]
      exact ⟨_, rfl, h2.set i hrit⟩

omit [DecidableEq α] in
/-- A call on two containers that threw. -/
theorem both_err {w : World α} {u : SWorld α} (h : Rep w u) {c d a b : Nat} {s t : St α} (hs : u.stores a = some s)
    (ht : u.stores b = some t) (ret : Option Nat) (e : Err) :
    ∃ w', w.both c d a b ret (.err e s t) = .ok (w', .threw e) ∧ Rep w' u := by
  refine ⟨_, rfl, ?_⟩
  have hput : put (put w.stores a (some s)) b (some t) = w.stores := by
    funext x; simp only [put]; split
    · rename_i hx; rw [hx, h.stores, ht]
    · split
      · rename_i hx; rw [hx, h.stores, hs]
      · rfl
  simp only [hput]
  exact h

/-- A hint does not matter for `transfer`. -/
theorem transfer_run {s : St α} (hs : WF Weak s) (h : At) (hh : h ≠ none → contents s ≠ []) (a e d : Nat) (t : St α) :
    Mtv.transfer false h a e d s t = Mtv.transfer false none a e d s t := by
  rcases h with _ | h
  · rfl
  · have hl := lookup_hint hs (hh (by simp)) (some h) a
    have : onSrc (lookup (some h) a) s t = onSrc (lookup none a) s t := by simp only [onSrc, hl]
    show (onSrc (lookup (some h) a) s t).bind _ = (onSrc (lookup none a) s t).bind _
    rw [this]

theorem transfer_step {w : World α} {u : SWorld α} (h : Rep w u) (c d first last dest : Nat) (hint ret : Option Nat)
    (hl : u.Legal (.transfer c d first last dest hint ret)) : StepOk w u (.transfer c d first last dest hint ret) := by
  obtain ⟨hcd, a, s, b, t, hsc, hsd, hh⟩ := hl
  obtain ⟨hc, hs⟩ := store_ctr hsc
  obtain ⟨hd, ht⟩ := store_ctr hsd
  obtain ⟨s1, hs1, hws⟩ := h.live _ _ _ hc
  obtain ⟨t1, ht1, hwt⟩ := h.live _ _ _ hd
  rw [hs] at hs1; cases hs1
  rw [ht] at ht1; cases ht1
  have hwc : w.store c = some (a, s) := by simp [World.store, h.ctrs, hc, h.stores, hs]
  have hwd : w.store d = some (b, t) := by simp [World.store, h.ctrs, hd, h.stores, ht]
  obtain ⟨at_, hat, hL⟩ := hint_ok h c hh
  have heff := transfer_eff weak_ne (hws rfl) (hwt rfl) none first last dest (fun e => absurd rfl e)
  unfold StepOk
  simp only [World.step, SWorld.step, if_neg hcd, hwc, hwd, hat, hsc, hsd, transfer_run (hws rfl) at_ hL]
  split at heff
  · obtain ⟨r, s', t', h1, h2, b1, hb1, -⟩ := heff
    obtain ⟨w', h3, h4⟩ := both_ok h hcd hc hd hs ht h2.wfs h2.wft ret (some r) (fun k e => by
      cases e; have := (List.getElem?_eq_some_iff.1 hb1).1; omega)
    simp only [h1, Res2.map]
    cases ret with
    | none => exact ⟨w', h3, h4⟩
    | some i => exact ⟨w', h3, h4⟩
  · obtain ⟨w', h3, h4⟩ := both_err (c := c) (d := d) h hs ht ret .outOfRange
    simp only [heff, Res2.map]
    exact ⟨w', h3, h4⟩

theorem swapRange_step {w : World α} {u : SWorld α} (h : Rep w u) (c d first last dest : Nat)
    (hl : u.Legal (.swapRange c d first last dest)) : StepOk w u (.swapRange c d first last dest) := by
  obtain ⟨hcd, a, s, b, t, hsc, hsd⟩ := hl
  obtain ⟨hc, hs⟩ := store_ctr hsc
  obtain ⟨hd, ht⟩ := store_ctr hsd
  obtain ⟨s1, hs1, hws⟩ := h.live _ _ _ hc
  obtain ⟨t1, ht1, hwt⟩ := h.live _ _ _ hd
  rw [hs] at hs1; cases hs1
  rw [ht] at ht1; cases ht1
  have hwc : w.store c = some (a, s) := by simp [World.store, h.ctrs, hc, h.stores, hs]
  have hwd : w.store d = some (b, t) := by simp [World.store, h.ctrs, hd, h.stores, ht]
  have heff := swap_eff weak_ne (hws rfl) (hwt rfl) first last dest
  unfold StepOk
  simp only [World.step, SWorld.step, if_neg hcd, hwc, hwd, hsc, hsd]
  split at heff
  · obtain ⟨r, s', t', h1, h2⟩ := heff
    obtain ⟨w', h3, h4⟩ := both_ok h hcd hc hd hs ht h2.wfs h2.wft none none (fun k e => by cases e)
    simp only [h1, Res2.map]
    exact ⟨w', h3, h4⟩
  · obtain ⟨w', h3, h4⟩ := both_err (c := c) (d := d) h hs ht none .outOfRange
    simp only [heff, Res2.map]
    exact ⟨w', h3, h4⟩

omit [DecidableEq α] in
theorem eq_same {S : Nat → Option (St α)} {n : Nat} {x x' : It} {y y' : SIt} (h : RepIt S n x y) (h' : RepIt S n x' y')
    (hrev : y.rev = y'.rev) {a k k' : Nat} {s : St α} (hy : y.at_ = some (a, k)) (hy' : y'.at_ = some (a, k')) (hs : S a = some s) :
    x.eq x' = y.same y' := by
  obtain ⟨h1, h2⟩ := h.pos a k hy
  obtain ⟨h1', h2'⟩ := h'.pos a k' hy'
  obtain ⟨h3, h4, h5⟩ := h.live a k s hy hs
  obtain ⟨h3', h4', h5'⟩ := h'.live a k' s hy' hs
  have hall : ∀ i j, Cur.all i = Cur.all j ↔ i = j := fun i j => by simp [Cur.all]
  simp only [It.eq, SIt.same, h1, h1', h3, h3', hrev, hy, hy', ne_eq, hall, Option.some.injEq, Prod.mk.injEq, true_and]
  rw [hrev] at h5 h2
  by_cases hk : k = k'
  · subst hk
    simp only [decide_true, Bool.and_true, true_and]
    by_cases he : k = lastIdx s y'.rev
    · simp [he, h5.2 he]
    · have hy1 : y.seen ≠ none := fun e => he (h5.1 e)
      have hy2 : y'.seen ≠ none := fun e => he (h5'.1 e)
      obtain ⟨i, hi⟩ := Option.ne_none_iff_exists'.1 hy1
      obtain ⟨j, hj⟩ := Option.ne_none_iff_exists'.1 hy2
      have e1 := h.seen i hi
      have e2 := h'.seen j hj
      have hnode : x.node = x'.node ↔ y.owner = y'.owner ∧ y.seen = y'.seen := by
        rcases hx : x.node with ⟨xi, xp, xk⟩
        rcases hx' : x'.node with ⟨xi', xp', xk'⟩
        have o1 := h.owner
        have o2 := h'.owner
        rw [hx] at e1 h2 o1
        rw [hx'] at e2 h2' o2
        simp only at e1 e2 h2 h2' o1 o2
        rw [hi, hj, ← e1, ← e2, ← o1, ← o2, h2, h2']
        simp [and_comm]
      simp only [he, not_false_eq_true, true_and, hnode, hy1, false_or]
      by_cases hh : y.owner = y'.owner ∧ y.seen = y'.seen
      · simp [hh]
      · simp [hh]
  · simp [hk]

theorem step_ok {w : World α} {u : SWorld α} (h : Rep w u) (c : Cmd α) (hl : u.Legal c) : StepOk w u c := by
  cases c with
  | make c k => exact make_step h c k hl
  | destroy c => exact destroy_step h c hl
  | swap c d => exact swap_step h c d hl.1 hl.2
  | moveNew c d => exact moveNew_step h c d hl.1 hl.2
  | moveTo c d => exact moveTo_step h c d hl.1 hl.2
  | call c f hint ret => exact call_step h c f hint ret hl
  | transfer c d first last dest hint ret => exact transfer_step h c d first last dest hint ret hl
  | swapRange c d first last dest => exact swapRange_step h c d first last dest hl
  | position c const pos hint ret => exact position_step h c const pos hint ret hl
  | begin_ c rev const i =>
    obtain ⟨a, b, s, -, hs, -, -, hws, hus, ha⟩ := h.ctr hl
    obtain ⟨it, h1, h2⟩ := begin_ok hs ha rev const c
    unfold StepOk
    simp only [World.step, SWorld.step, hws, hus, h1]
    exact ⟨_, rfl, h.set i h2⟩
  | end_ c rev const i =>
    obtain ⟨a, b, s, -, hs, -, -, hws, hus, ha⟩ := h.ctr hl
    obtain ⟨it, h1, h2⟩ := end_ok hs ha rev const c
    unfold StepOk
    simp only [World.step, SWorld.step, hws, hus, h1]
    exact ⟨_, rfl, h.set i h2⟩
  | fresh rev const i =>
    refine ⟨_, rfl, h.set i ⟨rfl, rfl, rfl, rfl, ?_, ?_, ?_, ?_⟩⟩ <;> intros <;> simp_all
  | copy i j =>
    obtain ⟨y, hy⟩ := Option.ne_none_iff_exists'.1 hl
    obtain ⟨x, hx, hxy⟩ := h.it hy
    unfold StepOk
    simp only [World.step, SWorld.step, hx, hy]
    exact ⟨_, rfl, h.set i hxy⟩
  | convert i j =>
    obtain ⟨y, hy, hc, hal⟩ := hl
    obtain ⟨x, hx, hxy⟩ := h.it hy
    obtain ⟨s, a, k, hal⟩ := alive_some hal
    obtain ⟨hat, hs⟩ := alive_at hal
    obtain ⟨he, hk, -⟩ := hxy.live a k s hat hs
    obtain ⟨hp, hidx⟩ := hxy.pos a k hat
    obtain ⟨it, h1, h2⟩ := make_ok hs (hxy.low a k hat) y.rev true y.owner hk hidx
    have harr : x.arr = some a := by rw [hxy.arr, hat]; rfl
    have hcx : x.const = false := by rw [hxy.const, hc]
    unfold StepOk
    simp only [World.step, SWorld.step, hx, hy, h.arrays hxy hal, hal, It.toConst, harr, hxy.rev, hxy.owner, hp, he, h1, hcx]
    exact ⟨_, rfl, h.set i h2⟩
  | swapIt i j =>
    obtain ⟨y, y', hy, hy', hr, hc⟩ := hl
    obtain ⟨x, hx, hxy⟩ := h.it hy
    obtain ⟨x', hx', hxy'⟩ := h.it hy'
    unfold StepOk
    simp only [World.step, SWorld.step, hx, hx', hy, hy', hxy.rev, hxy'.rev, hxy.const, hxy'.const, hr, hc, and_self, if_true]
    have h1 := h.set i hxy'
    exact ⟨_, rfl, h1.set j hxy⟩
  | inc i =>
    obtain ⟨y, hy, hal, hn⟩ := hl
    obtain ⟨x, hx, hxy⟩ := h.it hy
    obtain ⟨s, a, k, hal⟩ := alive_some hal
    obtain ⟨hat, hs⟩ := alive_at hal
    obtain ⟨it, h1, h2⟩ := inc_ok hxy hat hs hn
    unfold StepOk
    simp only [World.step, SWorld.step, hx, hy, h.arrays hxy hal, hal, h1]
    exact ⟨_, rfl, h.set i h2⟩
  | dec i =>
    obtain ⟨y, s, a, k, hy, hal, hn⟩ := hl
    obtain ⟨x, hx, hxy⟩ := h.it hy
    obtain ⟨hat, hs⟩ := alive_at hal
    obtain ⟨it, h1, h2⟩ := dec_ok hxy hat hs hn
    unfold StepOk
    simp only [World.step, SWorld.step, hx, hy, h.arrays hxy hal, hal, h1]
    exact ⟨_, rfl, h.set i h2⟩
  | deref i =>
    obtain ⟨y, hy, hn⟩ := hl
    obtain ⟨x, hx, hxy⟩ := h.it hy
    obtain ⟨n, hn⟩ := Option.ne_none_iff_exists'.1 hn
    have := hxy.seen n hn
    rcases y with ⟨r, c, o, at_, se⟩
    simp only at hn
    subst hn
    unfold StepOk
    simp only [World.step, SWorld.step, hx, hy, this]
    exact ⟨_, rfl, h⟩
  | equal i j =>
    obtain ⟨y, y', hy, hy', hr, hc, hat2, hal⟩ := hl
    obtain ⟨x, hx, hxy⟩ := h.it hy
    obtain ⟨x', hx', hxy'⟩ := h.it hy'
    obtain ⟨s, a, k, hal⟩ := alive_some hal
    obtain ⟨hat, hs⟩ := alive_at hal
    obtain ⟨k', hat'⟩ : ∃ k', y'.at_ = some (a, k') := by
      rw [hat] at hat2
      cases hz : y'.at_ with
      | none => rw [hz] at hat2; cases hat2
      | some p => rw [hz] at hat2; simp at hat2; exact ⟨p.2, by rw [hat2]⟩
    unfold StepOk
    simp only [World.step, SWorld.step, hx, hx', hy, hy', hxy.rev, hxy'.rev, hxy.const, hxy'.const, hr, hc, hxy.arr, hxy'.arr,
      hat, hat', Option.map_some, h.arrays hxy hal, Option.isSome_some, and_self, if_true, eq_same hxy hxy' hr hat hat' hs]
    exact ⟨_, rfl, h⟩
  | next i off =>
    obtain ⟨y, n, hy, hr, hn, hor⟩ := hl
    obtain ⟨x, hx, hxy⟩ := h.it hy
    have hi := hxy.seen n hn
    have hrx : x.rev = false := by rw [hxy.rev, hr]
    unfold StepOk
    simp only [World.step, SWorld.step, hx, hy, hrx, hn, hi, Bool.false_eq_true, if_false]
    by_cases hoff : off + 1 < n.size
    · simp only [if_pos hoff]; exact ⟨_, rfl, h⟩
    · have hal := hor.resolve_left hoff
      obtain ⟨s, a, k, hal⟩ := alive_some hal
      obtain ⟨hat, hs⟩ := alive_at hal
      obtain ⟨it, h1, h2⟩ := inc_ok hxy hat hs (by rw [hn]; simp)
      simp only [if_neg hoff, h.arrays hxy hal, hal, h1]
      refine ⟨_, rfl, h.set i ?_⟩
      rw [hr] at h2 ⊢
      exact h2
  | logical i off =>
    obtain ⟨y, hy, hr, hn⟩ := hl
    obtain ⟨x, hx, hxy⟩ := h.it hy
    obtain ⟨n, hn⟩ := Option.ne_none_iff_exists'.1 hn
    have hi := hxy.seen n hn
    have hrx : x.rev = false := by rw [hxy.rev, hr]
    rcases y with ⟨r, c, o, at_, se⟩
    simp only at hn
    subst hn
    unfold StepOk
    simp only [World.step, SWorld.step, hx, hy, hrx, hi, Bool.false_eq_true, if_false]
    exact ⟨_, rfl, h⟩

omit [DecidableEq α] in
theorem rep_empty : Rep (World.empty : World α) SWorld.empty where
  stores := rfl
  next := rfl
  ctrs := fun _ => rfl
  its := fun _ => .inl ⟨rfl, rfl⟩
  low := fun _ _ h => nomatch h
  live := fun _ _ _ h => nomatch h
  inj := fun _ _ _ _ _ h => nomatch h

theorem run_ok (cs : List (Cmd α)) : ∀ {w : World α} {u : SWorld α}, Rep w u → u.LegalAll cs →
    ∃ w', w.run cs = .ok (w', (u.run cs).2) ∧ Rep w' (u.run cs).1 := by
  induction cs with
  | nil => intro w u h _; exact ⟨w, rfl, h⟩
  | cons c cs ih =>
    intro w u h hl
    obtain ⟨w1, h1, h2⟩ := step_ok h c hl.1
    obtain ⟨w2, h3, h4⟩ := ih h2 hl.2
    exact ⟨w2, by simp only [World.run, h1, h3, SWorld.run], h4⟩

end Mdds.Mtv.Iter
