import Verif.Mtv.EraseLemmas
/-!
`erase` over several blocks.
-/
namespace Mdds.Mtv
open Mdds

variable {α : Type} [DecidableEq α]

/-! ### Several blocks -/

/-- Two stretches that are both in order; only their junction may need a merge. -/
def EffM (S : Option Ty → Prop) (s s' : St α) (r : Nat) (L : List (Option (Ty × α)))
    (ins outs : List (Ty × α)) : Prop :=
  Eff (fun _ => True) True True s s' L ins outs ∧
    ∃ A B, s'.blocks = A ++ B ∧ A.length = r ∧ Sep S A ∧ Sep S B

theorem SR.sep {S : Option Ty → Prop} {t} {post : List (Blk α)} (h : SR S t post) : Sep S post := by
  rcases post with _ | ⟨x, q⟩
  · simp
  · simp at h ⊢; exact h.2

theorem SM.sr {S : Option Ty → Prop} {t u} {mid : List (Blk α)} (h : SM S t mid u) : SR S t mid := by
  unfold SM at h
  rw [← List.cons_append] at h
  exact (List.isChain_append.1 h).1

@[simp] theorem sep_true (bs : List (Blk α)) : Sep (fun _ => True) bs := by
  induction bs with
  | nil => simp
  | cons b l ih =>
    rcases l with _ | ⟨x, q⟩
    · simp
    · simp at ih ⊢; exact ih

theorem Eff.of_true {S : Option Ty → Prop} {lp ep : Prop} {s s' : St α} {L ins outs}
    (h : Eff (fun _ => True) lp ep s s' L ins outs) (hs : Sep S s'.blocks) : Eff S lp ep s s' L ins outs :=
  ⟨h.tile, h.cur, hs, h.cells, h.led, h.evn, h.ev⟩

@[simp] theorem SL_true (bs : List (Blk α)) (t) : SL (fun _ => True) bs t := ⟨sep_true _, by simp⟩
@[simp] theorem SR_true (bs : List (Blk α)) (t) : SR (fun _ => True) t bs := by
  have := sep_true (⟨0, 0, t.map (fun ty => ⟨0, ty, []⟩)⟩ :: bs)
  rw [Sep_cons] at this
  rcases t with _ | t <;> simpa using this

macro "goM" h:ident : tactic => `(tactic|
  (all_goals subst_vars
   all_goals wf_split $h
   all_goals subst_vars
   all_goals simp [mev, Nat.add_assoc, *, EffM]))

theorem eraseBlocks_AA (S : Option Ty → Prop) (pre mid post : List (Blk α)) (b1 : Blk α) (m : Nat) (h1 : b1.size = m + 1) (b2 : Blk α) (d : Nat) (h2 : b2.size = d + 1)
    (c fr ev nx) (s : St α)
    (e : s = ⟨pre ++ b1 :: (mid ++ b2 :: post), c, fr, ev, nx⟩) (h : WF S s) :
    Runs (eraseBlocks (total pre) (total pre + (m + 1 + (total mid + d))) pre.length (pre.length + (mid.length + 1)) s)
      (fun r s' => EffM S s s' r (cells pre ++ (cells post)) [] []) := by
  have hF := post_ge (pre := pre ++ b1 :: mid) (b := b2) (post := post) h (by rw [e]; simp)
  subst e
  have hF' : AllGe (m + (total mid + (d + 2))) post := fun x hx => by have := hF x hx; simp at this; omega
  clear hF
  rcases b1 with ⟨p1, n1, d1⟩
  simp at h1
  subst h1
  rcases b2 with ⟨p2, n2, d2⟩
  simp at h2
  subst h2
  have e3 : m + (total mid + (d + 2)) ≤ total pre + (m + (total mid + (d + (total post + 2)))) := by omega
  have e4 : total pre + (m + (total mid + (d + (total post + 2)))) - (m + (total mid + (d + 2))) = total pre + (total post) := by omega
  goM h
  refine ⟨?_, pre, post.map (down (m + (total mid + (d + 2)))), ?_, ?_, ?_, ?_⟩
  · eff_tac
  · simp
  · simp
  · exact (‹SL S pre _›).1
  · simpa using SR.sep ‹SR S _ post›

theorem eraseBlocks_AN (S : Option Ty → Prop) (pre mid post : List (Blk α)) (b1 : Blk α) (m : Nat) (h1 : b1.size = m + 1) (p2 d k : Nat) (hk : 0 < k)
    (c fr ev nx) (s : St α)
    (e : s = ⟨pre ++ b1 :: (mid ++ ⟨p2, d + 1 + k, none⟩ :: post), c, fr, ev, nx⟩) (h : WF S s) :
    Runs (eraseBlocks (total pre) (total pre + (m + 1 + (total mid + d))) pre.length (pre.length + (mid.length + 1)) s)
      (fun r s' => EffM S s s' r (cells pre ++ (List.replicate k none ++ cells post)) [] []) := by
  have hF := post_ge (pre := pre ++ b1 :: mid) (b := ⟨p2, d + 1 + k, none⟩) (post := post) h (by rw [e]; simp)
  subst e
  have hF' : AllGe (m + (total mid + (d + 2))) post := fun x hx => by have := hF x hx; simp at this; omega
  clear hF
  rcases b1 with ⟨p1, n1, d1⟩
  simp at h1
  subst h1
  have hk2 : ¬ k = 0 := by omega
  have e3 : m + (total mid + (d + 2)) ≤ total pre + (m + (total mid + (d + (k + (total post + 2))))) := by omega
  have e4 : total pre + (m + (total mid + (d + (k + (total post + 2))))) - (m + (total mid + (d + 2))) = total pre + (k + (total post)) := by omega
  goM h
  refine ⟨?_, pre, ⟨total pre, k, none⟩ :: post.map (down (m + (total mid + (d + 2)))), ?_, ?_, ?_, ?_⟩
  · eff_tac
  · simp
  · simp
  · exact (‹SL S pre _›).1
  · simpa using ‹SR S _ post›

theorem eraseBlocks_AP (S : Option Ty → Prop) (pre mid post : List (Blk α)) (b1 : Blk α) (m : Nat) (h1 : b1.size = m + 1) (p2 i2 : Nat) (t2 : Ty) (y2 : α) (vd vb : List α) (hb : vb ≠ [])
    (c fr ev nx) (s : St α)
    (e : s = ⟨pre ++ b1 :: (mid ++ ⟨p2, vd.length + 1 + vb.length, some ⟨i2, t2, y2 :: (vd ++ vb)⟩⟩ :: post), c, fr, ev, nx⟩) (h : WF S s) :
    Runs (eraseBlocks (total pre) (total pre + (m + 1 + (total mid + vd.length))) pre.length (pre.length + (mid.length + 1)) s)
      (fun r s' => EffM S s s' r (cells pre ++ (vb.map (fun v => some (t2, v)) ++ cells post)) [] []) := by
  have hF := post_ge (pre := pre ++ b1 :: mid) (b := ⟨p2, vd.length + 1 + vb.length, some ⟨i2, t2, y2 :: (vd ++ vb)⟩⟩) (post := post) h (by rw [e]; simp)
  subst e
  have hF' : AllGe (m + (total mid + (vd.length + 2))) post := fun x hx => by have := hF x hx; simp at this; omega
  clear hF
  rcases b1 with ⟨p1, n1, d1⟩
  simp at h1
  subst h1
  have hb1 : 0 < vb.length := List.length_pos_iff.2 hb
  have hb2 : ¬ vb.length = 0 := by omega
  have e3 : m + (total mid + (vd.length + 2)) ≤ total pre + (m + (total mid + (vd.length + (vb.length + (total post + 2))))) := by omega
  have e4 : total pre + (m + (total mid + (vd.length + (vb.length + (total post + 2))))) - (m + (total mid + (vd.length + 2))) = total pre + (vb.length + (total post)) := by omega
  goM h
  refine ⟨?_, pre, ⟨total pre, vb.length, some ⟨i2, t2, vb⟩⟩ :: post.map (down (m + (total mid + (vd.length + 2)))), ?_, ?_, ?_, ?_⟩
  · eff_tac
  · simp
  · simp
  · exact (‹SL S pre _›).1
  · simpa using ‹SR S _ post›

theorem eraseBlocks_NA (S : Option Ty → Prop) (pre mid post : List (Blk α)) (p1 a m : Nat) (ha : 0 < a) (b2 : Blk α) (d : Nat) (h2 : b2.size = d + 1)
    (c fr ev nx) (s : St α)
    (e : s = ⟨pre ++ ⟨p1, a + (m + 1), none⟩ :: (mid ++ b2 :: post), c, fr, ev, nx⟩) (h : WF S s) :
    Runs (eraseBlocks (total pre + (a)) (total pre + (a + (m + 1 + (total mid + d)))) pre.length (pre.length + (mid.length + 1)) s)
      (fun r s' => EffM S s s' r (cells pre ++ (List.replicate a none ++ cells post)) [] []) := by
  have hF := post_ge (pre := pre ++ ⟨p1, a + (m + 1), none⟩ :: mid) (b := b2) (post := post) h (by rw [e]; simp)
  subst e
  have hF' : AllGe (m + (total mid + (d + 2))) post := fun x hx => by have := hF x hx; simp at this; omega
  clear hF
  have ha2 : ¬ a = 0 := by omega
  rcases b2 with ⟨p2, n2, d2⟩
  simp at h2
  subst h2
  have e3 : m + (total mid + (d + 2)) ≤ total pre + (a + (m + (total mid + (d + (total post + 2))))) := by omega
  have e4 : total pre + (a + (m + (total mid + (d + (total post + 2))))) - (m + (total mid + (d + 2))) = total pre + (a + (total post)) := by omega
  goM h
  refine ⟨?_, pre ++ [⟨total pre, a, none⟩], post.map (down (m + (total mid + (d + 2)))), ?_, ?_, ?_, ?_⟩
  · eff_tac
  · simp
  · simp
  · simp; assumption
  · simpa using SR.sep ‹SR S _ post›

theorem eraseBlocks_NN (S : Option Ty → Prop) (pre mid post : List (Blk α)) (p1 a m : Nat) (ha : 0 < a) (p2 d k : Nat) (hk : 0 < k)
    (c fr ev nx) (s : St α)
    (e : s = ⟨pre ++ ⟨p1, a + (m + 1), none⟩ :: (mid ++ ⟨p2, d + 1 + k, none⟩ :: post), c, fr, ev, nx⟩) (h : WF S s) :
    Runs (eraseBlocks (total pre + (a)) (total pre + (a + (m + 1 + (total mid + d)))) pre.length (pre.length + (mid.length + 1)) s)
      (fun r s' => EffM S s s' r (cells pre ++ (List.replicate a none ++ List.replicate k none ++ cells post)) [] []) := by
  have hF := post_ge (pre := pre ++ ⟨p1, a + (m + 1), none⟩ :: mid) (b := ⟨p2, d + 1 + k, none⟩) (post := post) h (by rw [e]; simp)
  subst e
  have hF' : AllGe (m + (total mid + (d + 2))) post := fun x hx => by have := hF x hx; simp at this; omega
  clear hF
  have ha2 : ¬ a = 0 := by omega
  have hk2 : ¬ k = 0 := by omega
  have e3 : m + (total mid + (d + 2)) ≤ total pre + (a + (m + (total mid + (d + (k + (total post + 2)))))) := by omega
  have e4 : total pre + (a + (m + (total mid + (d + (k + (total post + 2)))))) - (m + (total mid + (d + 2))) = total pre + (a + (k + (total post))) := by omega
  goM h
  refine ⟨?_, pre ++ [⟨total pre, a, none⟩], ⟨total pre + (a), k, none⟩ :: post.map (down (m + (total mid + (d + 2)))), ?_, ?_, ?_, ?_⟩
  · eff_tac
  · simp
  · simp
  · simp; assumption
  · simpa using ‹SR S _ post›

theorem eraseBlocks_NP (S : Option Ty → Prop) (pre mid post : List (Blk α)) (p1 a m : Nat) (ha : 0 < a) (p2 i2 : Nat) (t2 : Ty) (y2 : α) (vd vb : List α) (hb : vb ≠ [])
    (c fr ev nx) (s : St α)
    (e : s = ⟨pre ++ ⟨p1, a + (m + 1), none⟩ :: (mid ++ ⟨p2, vd.length + 1 + vb.length, some ⟨i2, t2, y2 :: (vd ++ vb)⟩⟩ :: post), c, fr, ev, nx⟩) (h : WF S s) :
    Runs (eraseBlocks (total pre + (a)) (total pre + (a + (m + 1 + (total mid + vd.length)))) pre.length (pre.length + (mid.length + 1)) s)
      (fun r s' => EffM S s s' r (cells pre ++ (List.replicate a none ++ vb.map (fun v => some (t2, v)) ++ cells post)) [] []) := by
  have hF := post_ge (pre := pre ++ ⟨p1, a + (m + 1), none⟩ :: mid) (b := ⟨p2, vd.length + 1 + vb.length, some ⟨i2, t2, y2 :: (vd ++ vb)⟩⟩) (post := post) h (by rw [e]; simp)
  subst e
  have hF' : AllGe (m + (total mid + (vd.length + 2))) post := fun x hx => by have := hF x hx; simp at this; omega
  clear hF
  have ha2 : ¬ a = 0 := by omega
  have hb1 : 0 < vb.length := List.length_pos_iff.2 hb
  have hb2 : ¬ vb.length = 0 := by omega
  have e3 : m + (total mid + (vd.length + 2)) ≤ total pre + (a + (m + (total mid + (vd.length + (vb.length + (total post + 2)))))) := by omega
  have e4 : total pre + (a + (m + (total mid + (vd.length + (vb.length + (total post + 2)))))) - (m + (total mid + (vd.length + 2))) = total pre + (a + (vb.length + (total post))) := by omega
  goM h
  refine ⟨?_, pre ++ [⟨total pre, a, none⟩], ⟨total pre + (a), vb.length, some ⟨i2, t2, vb⟩⟩ :: post.map (down (m + (total mid + (vd.length + 2)))), ?_, ?_, ?_, ?_⟩
  · eff_tac
  · simp
  · simp
  · simp; assumption
  · simpa using ‹SR S _ post›

theorem eraseBlocks_PA (S : Option Ty → Prop) (pre mid post : List (Blk α)) (p1 i1 : Nat) (t1 : Ty) (y1 : α) (va vm : List α) (ha : va ≠ []) (b2 : Blk α) (d : Nat) (h2 : b2.size = d + 1)
    (c fr ev nx) (s : St α)
    (e : s = ⟨pre ++ ⟨p1, va.length + (vm.length + 1), some ⟨i1, t1, va ++ (y1 :: vm)⟩⟩ :: (mid ++ b2 :: post), c, fr, ev, nx⟩) (h : WF S s) :
    Runs (eraseBlocks (total pre + (va.length)) (total pre + (va.length + (vm.length + 1 + (total mid + d)))) pre.length (pre.length + (mid.length + 1)) s)
      (fun r s' => EffM S s s' r (cells pre ++ (va.map (fun v => some (t1, v)) ++ cells post)) [] []) := by
  have hF := post_ge (pre := pre ++ ⟨p1, va.length + (vm.length + 1), some ⟨i1, t1, va ++ (y1 :: vm)⟩⟩ :: mid) (b := b2) (post := post) h (by rw [e]; simp)
  subst e
  have hF' : AllGe (vm.length + (total mid + (d + 2))) post := fun x hx => by have := hF x hx; simp at this; omega
  clear hF
  have ha1 : 0 < va.length := List.length_pos_iff.2 ha
  have ha2 : ¬ va.length = 0 := by omega
  rcases b2 with ⟨p2, n2, d2⟩
  simp at h2
  subst h2
  have e3 : vm.length + (total mid + (d + 2)) ≤ total pre + (va.length + (vm.length + (total mid + (d + (total post + 2))))) := by omega
  have e4 : total pre + (va.length + (vm.length + (total mid + (d + (total post + 2))))) - (vm.length + (total mid + (d + 2))) = total pre + (va.length + (total post)) := by omega
  goM h
  refine ⟨?_, pre ++ [⟨total pre, va.length, some ⟨i1, t1, va⟩⟩], post.map (down (vm.length + (total mid + (d + 2)))), ?_, ?_, ?_, ?_⟩
  · eff_tac
  · simp
  · simp
  · simp; assumption
  · simpa using SR.sep ‹SR S _ post›

theorem eraseBlocks_PN (S : Option Ty → Prop) (pre mid post : List (Blk α)) (p1 i1 : Nat) (t1 : Ty) (y1 : α) (va vm : List α) (ha : va ≠ []) (p2 d k : Nat) (hk : 0 < k)
    (c fr ev nx) (s : St α)
    (e : s = ⟨pre ++ ⟨p1, va.length + (vm.length + 1), some ⟨i1, t1, va ++ (y1 :: vm)⟩⟩ :: (mid ++ ⟨p2, d + 1 + k, none⟩ :: post), c, fr, ev, nx⟩) (h : WF S s) :
    Runs (eraseBlocks (total pre + (va.length)) (total pre + (va.length + (vm.length + 1 + (total mid + d)))) pre.length (pre.length + (mid.length + 1)) s)
      (fun r s' => EffM S s s' r (cells pre ++ (va.map (fun v => some (t1, v)) ++ List.replicate k none ++ cells post)) [] []) := by
  have hF := post_ge (pre := pre ++ ⟨p1, va.length + (vm.length + 1), some ⟨i1, t1, va ++ (y1 :: vm)⟩⟩ :: mid) (b := ⟨p2, d + 1 + k, none⟩) (post := post) h (by rw [e]; simp)
  subst e
  have hF' : AllGe (vm.length + (total mid + (d + 2))) post := fun x hx => by have := hF x hx; simp at this; omega
  clear hF
  have ha1 : 0 < va.length := List.length_pos_iff.2 ha
  have ha2 : ¬ va.length = 0 := by omega
  have hk2 : ¬ k = 0 := by omega
  have e3 : vm.length + (total mid + (d + 2)) ≤ total pre + (va.length + (vm.length + (total mid + (d + (k + (total post + 2)))))) := by omega
  have e4 : total pre + (va.length + (vm.length + (total mid + (d + (k + (total post + 2)))))) - (vm.length + (total mid + (d + 2))) = total pre + (va.length + (k + (total post))) := by omega
  goM h
  refine ⟨?_, pre ++ [⟨total pre, va.length, some ⟨i1, t1, va⟩⟩], ⟨total pre + (va.length), k, none⟩ :: post.map (down (vm.length + (total mid + (d + 2)))), ?_, ?_, ?_, ?_⟩
  · eff_tac
  · simp
  · simp
  · simp; assumption
  · simpa using ‹SR S _ post›

theorem eraseBlocks_PP (S : Option Ty → Prop) (pre mid post : List (Blk α)) (p1 i1 : Nat) (t1 : Ty) (y1 : α) (va vm : List α) (ha : va ≠ []) (p2 i2 : Nat) (t2 : Ty) (y2 : α) (vd vb : List α) (hb : vb ≠ [])
    (c fr ev nx) (s : St α)
    (e : s = ⟨pre ++ ⟨p1, va.length + (vm.length + 1), some ⟨i1, t1, va ++ (y1 :: vm)⟩⟩ :: (mid ++ ⟨p2, vd.length + 1 + vb.length, some ⟨i2, t2, y2 :: (vd ++ vb)⟩⟩ :: post), c, fr, ev, nx⟩) (h : WF S s) :
    Runs (eraseBlocks (total pre + (va.length)) (total pre + (va.length + (vm.length + 1 + (total mid + vd.length)))) pre.length (pre.length + (mid.length + 1)) s)
      (fun r s' => EffM S s s' r (cells pre ++ (va.map (fun v => some (t1, v)) ++ vb.map (fun v => some (t2, v)) ++ cells post)) [] []) := by
  have hF := post_ge (pre := pre ++ ⟨p1, va.length + (vm.length + 1), some ⟨i1, t1, va ++ (y1 :: vm)⟩⟩ :: mid) (b := ⟨p2, vd.length + 1 + vb.length, some ⟨i2, t2, y2 :: (vd ++ vb)⟩⟩) (post := post) h (by rw [e]; simp)
  subst e
  have hF' : AllGe (vm.length + (total mid + (vd.length + 2))) post := fun x hx => by have := hF x hx; simp at this; omega
  clear hF
  have ha1 : 0 < va.length := List.length_pos_iff.2 ha
  have ha2 : ¬ va.length = 0 := by omega
  have hb1 : 0 < vb.length := List.length_pos_iff.2 hb
  have hb2 : ¬ vb.length = 0 := by omega
  have e3 : vm.length + (total mid + (vd.length + 2)) ≤ total pre + (va.length + (vm.length + (total mid + (vd.length + (vb.length + (total post + 2)))))) := by omega
  have e4 : total pre + (va.length + (vm.length + (total mid + (vd.length + (vb.length + (total post + 2)))))) - (vm.length + (total mid + (vd.length + 2))) = total pre + (va.length + (vb.length + (total post))) := by omega
  goM h
  refine ⟨?_, pre ++ [⟨total pre, va.length, some ⟨i1, t1, va⟩⟩], ⟨total pre + (va.length), vb.length, some ⟨i2, t2, vb⟩⟩ :: post.map (down (vm.length + (total mid + (vd.length + 2)))), ?_, ?_, ?_, ?_⟩
  · eff_tac
  · simp
  · simp
  · simp; assumption
  · simpa using ‹SR S _ post›

/-- The final merge. -/
theorem mergeWithNext_two (S : Option Ty → Prop) (A B : List (Blk α)) (p1 n1 d1 p2 n2 d2) (c fr ev nx) (s : St α)
    (e : s = ⟨A ++ ⟨p1, n1, d1⟩ :: ⟨p2, n2, d2⟩ :: B, c, fr, ev, nx⟩)
    (ht : Tile 0 s.blocks) (hc : s.cur = total s.blocks)
    (h1 : Sep S (A ++ [⟨p1, n1, d1⟩])) (h2 : Sep S (⟨p2, n2, d2⟩ :: B)) :
    Runs (mergeWithNext A.length s)
      (fun _ s' => Eff S True True s s' (cells s.blocks) [] []) := by
  subst e
  rcases d1 with _ | ⟨i1, t1, v1⟩
  · rcases d2 with _ | ⟨i2, t2, v2⟩
    all_goals simp at ht hc h1 h2
    all_goals casesm* _ ∧ _
    all_goals subst_vars
    all_goals mrun [total_nil]
  · rcases d2 with _ | ⟨i2, t2, v2⟩
    · simp at ht hc h1 h2
      casesm* _ ∧ _
      subst_vars
      mrun [total_nil]
    · by_cases htt : t1 = t2
      all_goals simp at ht hc h1 h2
      all_goals casesm* _ ∧ _
      all_goals subst_vars
      all_goals mrun [total_nil]

end Mdds.Mtv
