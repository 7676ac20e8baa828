import Verif.Mtv.Multi
/-!
Effect of `erase`, branch by branch.
-/
namespace Mdds.Mtv
open Mdds

set_option linter.unusedSimpArgs false
set_option linter.unusedVariables false

variable {α : Type} [DecidableEq α]

theorem eraseSingle_part_none (S : Option Ty → Prop) (pre post : List (Blk α)) (p a m k : Nat)
    (hk : ¬ (a = 0 ∧ k = 0)) (c fr ev nx) (s : St α)
    (e : s = ⟨pre ++ ⟨p, a + (m + 1 + k), none⟩ :: post, c, fr, ev, nx⟩) (h : WF S s) :
    Runs (eraseSingle (total pre + a) (total pre + a + m) pre.length s)
      (fun _ s' => Eff S True True s s'
        (cells pre ++ (List.replicate a none ++ List.replicate k none) ++ cells post) [] []) := by
  have hF := post_ge (b := ⟨p, a + (m + 1 + k), none⟩) h (by rw [e])
  subst e
  have hF' : AllGe (m + 1) post := fun x hx => by have := hF x hx; simp at this; omega
  clear hF
  have e1 : m + 1 ≤ a + (m + (k + 1)) := by omega
  have e2 : a + (m + (k + 1)) - (m + 1) = a + k := by omega
  have e3 : m + 1 ≤ total pre + (a + (m + (k + (total post + 1)))) := by omega
  have e4 : total pre + (a + (m + (k + (total post + 1)))) - (m + 1) = total pre + (a + (k + total post)) := by omega
  have hk2 : 0 < a + k := by omega
  go h

theorem eraseSingle_part_some (S : Option Ty → Prop) (pre post : List (Blk α)) (p i : Nat) (t : Ty)
    (va vm vb : List α) (y : α) (hk : ¬ (va = [] ∧ vb = [])) (c fr ev nx) (s : St α)
    (e : s = ⟨pre ++ ⟨p, va.length + (vm.length + 1 + vb.length), some ⟨i, t, va ++ (y :: (vm ++ vb))⟩⟩ :: post,
      c, fr, ev, nx⟩) (h : WF S s) :
    Runs (eraseSingle (total pre + va.length) (total pre + va.length + vm.length) pre.length s)
      (fun _ s' => Eff S True True s s'
        (cells pre ++ (va.map (fun v => some (t, v)) ++ vb.map (fun v => some (t, v))) ++ cells post) [] []) := by
  have hF := post_ge (b := ⟨p, va.length + (vm.length + 1 + vb.length), some ⟨i, t, va ++ (y :: (vm ++ vb))⟩⟩) h (by rw [e])
  subst e
  have hF' : AllGe (vm.length + 1) post := fun x hx => by have := hF x hx; simp at this; omega
  clear hF
  have hk' : ¬ (va.length = 0 ∧ vb.length = 0) := by simpa using hk
  have hk2 : 0 < va.length + vb.length := by omega
  have e1 : vm.length + 1 ≤ va.length + (vm.length + (vb.length + 1)) := by omega
  have e2 : va.length + (vm.length + (vb.length + 1)) - (vm.length + 1) = va.length + vb.length := by omega
  have e3 : vm.length + 1 ≤ total pre + (va.length + (vm.length + (vb.length + (total post + 1)))) := by omega
  have e4 : total pre + (va.length + (vm.length + (vb.length + (total post + 1)))) - (vm.length + 1)
    = total pre + (va.length + (vb.length + total post)) := by omega
  go h

/-- Whole block erased, it was the first one. -/
theorem eraseSingle_first (S : Option Ty → Prop) (post : List (Blk α)) (b : Blk α) (m : Nat)
    (hm : b.size = m + 1) (c fr ev nx) (s : St α) (ok : b.ok)
    (e : s = ⟨b :: post, c, fr, ev, nx⟩) (h : WF S s) :
    Runs (eraseSingle 0 m 0 s)
      (fun _ s' => Eff S True True s s' (cells post) [] []) := by
  have hF := post_ge (pre := []) (b := b) h (by rw [e]; rfl)
  subst e
  have hF' : AllGe (m + 1) post := fun x hx => by have := hF x hx; simp at this; omega
  clear hF
  have e3 : m + 1 ≤ m + (total post + 1) := by omega
  have e4 : m + (total post + 1) - (m + 1) = total post := by omega
  have hS : ∀ t, SR S t post → Sep S (post.map (down (m + 1))) := by
    intro t ht
    rcases post with _ | ⟨⟨p2, n2, d2⟩, q⟩
    · simp
    · simp at ht ⊢
      exact ht.2
  rcases tail0_cases b m ok (by omega) with ⟨p, k, rfl⟩ | ⟨p, i, t, y, vd, vb, rfl, rfl⟩
  · have : k = 0 := by simp at hm; omega
    subst this
    clear hm
    have := hS _ (by obtain ⟨_, _, hs⟩ := h; simpa using hs)
    clear hS
    go h
  · have : vb = [] := by simp at hm; simpa using hm
    subst this
    clear hm
    have := hS _ (by obtain ⟨_, _, hs⟩ := h; simpa using hs)
    clear hS
    go h

/-- Whole block erased, it was the last one. -/
theorem eraseSingle_last (S : Option Ty → Prop) (pre : List (Blk α)) (b : Blk α) (m : Nat)
    (hm : b.size = m + 1) (c fr ev nx) (s : St α) (ok : b.ok)
    (e : s = ⟨pre ++ [b], c, fr, ev, nx⟩) (h : WF S s) :
    Runs (eraseSingle (total pre) (total pre + m) pre.length s)
      (fun _ s' => Eff S True True s s' (cells pre) [] []) := by
  subst e
  rcases snoc_cases pre with rfl | ⟨q, ⟨p0, n0, d0⟩, rfl⟩
  · simpa using eraseSingle_first S [] b m hm c fr ev nx _ ok rfl h
  have e4 : total q + (n0 + (m + 1)) - (m + 1) = total q + n0 := by omega
  have e3 : (m + 1) ≤ total q + (n0 + (m + 1)) := by omega
  rcases tail0_cases b m ok (by omega) with ⟨p, k, rfl⟩ | ⟨p, i, t, y, vd, vb, rfl, rfl⟩
  · have : k = 0 := by simp at hm; omega
    subst this
    clear hm
    rcases d0 with _ | ⟨_, _, _⟩
    go h
  · have : vb = [] := by simp at hm; simpa using hm
    subst this
    clear hm
    rcases d0 with _ | ⟨_, _, _⟩
    go h

/-- Whole block erased, between two others. -/
theorem eraseSingle_mid (S : Option Ty → Prop) (pre : List (Blk α)) (p0 n0 : Nat) (d0 : Option (EB α))
    (b : Blk α) (p2 n2 : Nat) (d2 : Option (EB α)) (post : List (Blk α)) (m : Nat)
    (hm : b.size = m + 1) (c fr ev nx) (s : St α) (ok : b.ok)
    (e : s = ⟨pre ++ ⟨p0, n0, d0⟩ :: b :: ⟨p2, n2, d2⟩ :: post, c, fr, ev, nx⟩) (h : WF S s) :
    Runs (eraseSingle (total pre + n0) (total pre + (n0 + m)) (pre.length + 1) s)
      (fun _ s' => Eff S True True s s' (cells pre ++ cells [⟨p0, n0, d0⟩] ++ cells (⟨p2, n2, d2⟩ :: post)) [] []) := by
  have hF := post_ge (pre := pre ++ [⟨p0, n0, d0⟩]) (b := b) (post := ⟨p2, n2, d2⟩ :: post) h (by rw [e]; simp)
  subst e
  have hF' : AllGe (m + 1) post := fun x hx => by have := hF x (by simp [hx]); simp at this; omega
  clear hF
  have e1 : m + 1 ≤ total pre + (n0 + (m + 1)) := by omega
  have e2 : total pre + (n0 + (m + 1)) - (m + 1) = total pre + n0 := by omega
  have e3 : m + 1 ≤ total pre + (n0 + (m + (n2 + (total post + 1)))) := by omega
  have e4 : total pre + (n0 + (m + (n2 + (total post + 1)))) - (m + 1) = total pre + (n0 + (n2 + total post)) := by omega
  rcases tail0_cases b m ok (by omega) with ⟨p, k, rfl⟩ | ⟨p, i, t, y, vd, vb, rfl, rfl⟩
  · have : k = 0 := by simp at hm; omega
    subst this
    clear hm
    rcases d0 with _ | ⟨i0, t0, v0⟩
    · rcases d2 with _ | ⟨_, _, _⟩
      go h
    · rcases d2 with _ | ⟨i2, t2, v2⟩
      · go h
      · by_cases ht : t0 = t2
        go h
  · have : vb = [] := by simp at hm; simpa using hm
    subst this
    clear hm
    rcases d0 with _ | ⟨i0, t0, v0⟩
    · rcases d2 with _ | ⟨_, _, _⟩
      go h
    · rcases d2 with _ | ⟨i2, t2, v2⟩
      · go h
      · by_cases ht : t0 = t2
        go h

end Mdds.Mtv
