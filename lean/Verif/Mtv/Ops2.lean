import Verif.Mtv.Ops

/-!
# multi_type_vector: erasing and the container-level operations

Joins the branch lemmas of `erase` into a statement about the list of cells, and lifts all
modifiers from "the position lies in block `i`" to the public calls.
-/

namespace Mdds.Mtv

set_option linter.unusedSectionVars false

variable {α : Type} [DecidableEq α]

/-! ### erase -/

theorem eraseSingle_ok {S : Option Ty → Prop} {s : St α} (h : WF S s)
    {pre post : List (Blk α)} {b : Blk α} (e : s.blocks = pre ++ b :: post) {a m : Nat}
    (ha : a + m < b.size) :
    Runs (eraseSingle (total pre + a) (total pre + a + m) pre.length s)
      (fun _ s' => Eff S True True s s' (splice (cells s.blocks) (total pre + a) (m + 1) []) [] []) := by
  obtain ⟨ok, hpl, hp⟩ := ok_of_split h e
  by_cases hw : a = 0 ∧ b.size = m + 1
  · obtain ⟨rfl, hw⟩ := hw
    rcases s with ⟨bs, c, fr, ev, nx⟩
    simp only at e
    have hcl := cells_length_of_ok ok
    have key : ∀ L, L = cells pre ++ cells post → L = splice (cells bs) (total pre + 0) (m + 1) [] := by
      intro L hL
      exact splice_mk (cells pre) b.cells (cells post) (by rw [e]; simp) (by simp [hpl]) (by omega) (by simpa using hL)
    rcases snoc_cases pre with rfl | ⟨q, ⟨p0, n0, d0⟩, rfl⟩
    · have h1 := eraseSingle_first S post b m hw c fr ev nx _ ok (by simpa using e) h
      simpa using Runs.imp h1 (fun r s' hh => hh.cast (key _ (by simp)))
    · rcases post with _ | ⟨⟨p2, n2, d2⟩, post⟩
      · have h1 := eraseSingle_last S _ b m hw c fr ev nx _ ok (by rw [e]) h
        exact Runs.imp h1 (fun r s' hh => hh.cast (key _ (by simp)))
      · have h1 := eraseSingle_mid S q p0 n0 d0 b p2 n2 d2 post m hw c fr ev nx _ ok (by rw [e]; simp) h
        have h2 := Runs.imp h1 (fun r s' hh => hh.cast (key _ (by simp)))
        simpa [Nat.add_assoc] using h2
  · rcases s with ⟨bs, c, fr, ev, nx⟩
    simp only at e
    subst e
    rcases cut_cases b a m ok (by omega) with ⟨p, k, rfl⟩ | ⟨p, i, t, va, y, vm, vb, rfl, rfl, rfl⟩
    · have h1 := eraseSingle_part_none S pre post p a m k (by intro hh; simp at hw; omega) c fr ev nx _ rfl h
      refine Runs.imp h1 (fun r s' hh => hh.cast (splice_mk (cells pre ++ List.replicate a none) (List.replicate (m + 1) none)
        (List.replicate k none ++ cells post) ?_ ?_ ?_ ?_))
      · simp [List.replicate_add, List.replicate_succ, -List.replicate_append_replicate]
      · simp [hpl]
      · simp
      · simp [-List.replicate_append_replicate]
    · have h1 := eraseSingle_part_some S pre post p i t va vm vb y (by rintro ⟨rfl, rfl⟩; simp at hw) c fr ev nx _ rfl h
      refine Runs.imp h1 (fun r s' hh => hh.cast (splice_mk (cells pre ++ va.map (fun v => some (t, v)))
        ((y :: vm).map (fun v => some (t, v))) (vb.map (fun v => some (t, v)) ++ cells post) ?_ ?_ ?_ ?_))
      · simp
      · simp [hpl]
      · simp
      · simp

theorem Eff.comp {S : Option Ty → Prop} {s s1 s2 : St α} {L L2 : List (Option (Ty × α))}
    (h1 : Eff (fun _ => True) True True s s1 L [] []) (h2 : Eff S True True s1 s2 L2 [] []) : Eff S True True s s2 L2 [] [] := by
  refine ⟨h2.tile, h2.cur, h2.sep, h2.cells, fun _ z hz => ?_, ?_, fun _ i => ?_⟩
  · have := h1.led trivial z hz; have := h2.led trivial z hz; omega
  · have := h1.evn; have := h2.evn; omega
  · have := h1.ev trivial i; have := h2.ev trivial i; omega

theorem eraseMulti_of {S : Option Ty → Prop} {s : St α} {row endRow i1 i2 : Nat} {L : List (Option (Ty × α))}
    (h : Runs (eraseBlocks row endRow i1 i2 s) (fun r s' => EffM S s s' r L [] [])) :
    Runs (eraseMulti row endRow i1 i2 s) (fun _ s' => Eff S True True s s' L [] []) := by
  unfold eraseMulti
  rw [bind_apply]
  refine Runs.bind h ?_
  rintro r ⟨bs, c, fr, ev, nx⟩ ⟨hE, A, B, e, rfl, hA, hB⟩
  simp only at e
  subst e
  simp only [bind_apply, nBlocks_ap, obind_ok]
  have fin : Sep S (A ++ B) → mergeWithNext (A.length - 1) ⟨A ++ B, c, fr, ev, nx⟩ = .ok (false, ⟨A ++ B, c, fr, ev, nx⟩) →
      Runs ((mergeWithNext (A.length - 1) ⟨A ++ B, c, fr, ev, nx⟩).bind fun p => M.pure () p.2)
        (fun _ s' => Eff S True True s s' L [] []) := by
    intro h1 h2
    rw [h2]
    exact ⟨_, _, rfl, hE.of_true h1⟩
  have two : ∀ (A' B' : List (Blk α)) x y, A ++ B = A' ++ x :: y :: B' → A'.length = A.length - 1 → Sep S (A' ++ [x]) →
      Sep S (y :: B') → Runs ((mergeWithNext (A.length - 1) ⟨A ++ B, c, fr, ev, nx⟩).bind fun p => M.pure () p.2)
        (fun _ s' => Eff S True True s s' L [] []) := by
    intro A' B' x y e1 e2 h1 h2
    rw [← e2]
    refine Runs.bind (mergeWithNext_two S A' B' x.pos x.size x.data y.pos y.size y.data c fr ev nx _ (by rw [e1]) hE.tile hE.cur h1 h2) ?_
    intro r s2 hh
    exact ⟨_, _, rfl, (hE.comp hh).cast hE.cells⟩
  by_cases h0 : (A ++ B).length = 0
  · rw [if_pos h0]
    refine ⟨_, _, rfl, hE.of_true ?_⟩
    rw [List.length_eq_zero_iff.1 h0]; simp
  · rw [if_neg h0]
    rcases snoc_cases A with rfl | ⟨A', x, rfl⟩
    · rcases B with _ | ⟨x, _ | ⟨y, B'⟩⟩
      · simp at h0
      · exact fin hB (by simp [mergeWithNext, mev])
      · refine two [] B' x y (by simp) (by simp) (by simp) ?_
        simp at hB ⊢; exact hB.2
    · rcases B with _ | ⟨y, B'⟩
      · exact fin (by simpa using hA) (by simp [mergeWithNext, mev])
      · exact two A' B' x y (by simp) (by simp) hA hB

theorem eraseMulti_ok {S : Option Ty → Prop} {s : St α} (h : WF S s)
    {pre mid post : List (Blk α)} {b1 b2 : Blk α} (e : s.blocks = pre ++ b1 :: (mid ++ b2 :: post)) {a d k : Nat}
    (ha : a < b1.size) (hd : d < b2.size) (hk : a + k = b1.size + (total mid + (d + 1))) :
    Runs (eraseMulti (total pre + a) (total pre + (b1.size + (total mid + d))) pre.length
        (pre.length + (mid.length + 1)) s)
      (fun _ s' => Eff S True True s s' (splice (cells s.blocks) (total pre + a) k []) [] []) := by
  obtain ⟨ok1, hpl, hp⟩ := ok_of_split h e
  obtain ⟨ok2, hpl2, hp2⟩ := ok_of_split (pre := pre ++ b1 :: mid) (b := b2) (post := post) h (by rw [e]; simp)
  have hc1 := cells_length_of_ok ok1
  have hc2 := cells_length_of_ok ok2
  have hml : (cells mid).length = total mid := by
    simp [hpl, hc1] at hpl2; omega
  clear hpl2 hp hp2
  rcases s with ⟨bs, c, fr, ev, nx⟩
  simp only at e
  -- what is left of the first and the last block
  have hd1 : (a = 0) ∨ (∃ p1 m, b1 = ⟨p1, a + (m + 1), none⟩ ∧ 0 < a) ∨
      ∃ p1 i1 t1 va y1 vm, b1 = ⟨p1, va.length + (vm.length + 1), some ⟨i1, t1, va ++ (y1 :: vm)⟩⟩ ∧ va.length = a ∧ va ≠ [] := by
    by_cases h0 : a = 0
    · exact Or.inl h0
    · rcases head0_cases b1 a ok1 ha with ⟨p1, m, rfl⟩ | ⟨p1, i1, t1, va, y1, vm, rfl, rfl⟩
      · exact Or.inr (Or.inl ⟨p1, m, rfl, by omega⟩)
      · exact Or.inr (Or.inr ⟨p1, i1, t1, va, y1, vm, rfl, rfl, by rintro rfl; simp at h0⟩)
  have hd2 : (b2.size = d + 1) ∨ (∃ p2 k2, b2 = ⟨p2, d + 1 + k2, none⟩ ∧ 0 < k2) ∨
      ∃ p2 i2 t2 y2 vd vb, b2 = ⟨p2, vd.length + 1 + vb.length, some ⟨i2, t2, y2 :: (vd ++ vb)⟩⟩ ∧ vd.length = d ∧ vb ≠ [] := by
    by_cases h0 : b2.size = d + 1
    · exact Or.inl h0
    · rcases tail0_cases b2 d ok2 hd with ⟨p2, k2, rfl⟩ | ⟨p2, i2, t2, y2, vd, vb, rfl, rfl⟩
      · exact Or.inr (Or.inl ⟨p2, k2, rfl, by simp at h0; omega⟩)
      · exact Or.inr (Or.inr ⟨p2, i2, t2, y2, vd, vb, rfl, rfl, by rintro rfl; simp at h0⟩)
  rcases hd1 with rfl | ⟨p1, m, rfl, ha0⟩ | ⟨p1, i1, t1, va, y1, vm, rfl, rfl, ha0⟩
  · obtain ⟨m, hm⟩ : ∃ m, b1.size = m + 1 := ⟨b1.size - 1, by omega⟩
    rcases hd2 with hb0 | ⟨p2, k2, rfl, hb0⟩ | ⟨p2, i2, t2, y2, vd, vb, rfl, rfl, hb0⟩
    · have e1 : total pre + (b1.size + (total mid + d)) = total pre + (m + 1 + (total mid + d)) := by omega
      have h1 := eraseMulti_of (eraseBlocks_AA S pre mid post b1 m hm b2 d hb0 c fr ev nx _ (by rw [e]) h)
      simp only [e1, Nat.add_zero]
      refine Runs.imp h1 (fun r s' hh => hh.cast (splice_mk (cells pre) (b1.cells ++ (cells mid ++ b2.cells)) (cells post) ?_ ?_ ?_ ?_))
      · rw [e]; simp [List.replicate_add, List.replicate_succ, -List.replicate_append_replicate]
      · simp [hpl]
      · simp [hml, hc1, hc2] at hk ⊢; omega
      · simp [-List.replicate_append_replicate]
    · have e1 : total pre + (b1.size + (total mid + d)) = total pre + (m + 1 + (total mid + d)) := by omega
      have h1 := eraseMulti_of (eraseBlocks_AN S pre mid post b1 m hm p2 d k2 hb0 c fr ev nx _ (by rw [e]) h)
      simp only [e1, Nat.add_zero]
      refine Runs.imp h1 (fun r s' hh => hh.cast (splice_mk (cells pre) (b1.cells ++ (cells mid ++ List.replicate (d + 1) none)) (List.replicate k2 none ++ cells post) ?_ ?_ ?_ ?_))
      · rw [e]; simp [List.replicate_add, List.replicate_succ, -List.replicate_append_replicate]
      · simp [hpl]
      · simp [hml, hc1, hc2] at hk ⊢; omega
      · simp [-List.replicate_append_replicate]
    · have e1 : total pre + (b1.size + (total mid + vd.length)) = total pre + (m + 1 + (total mid + vd.length)) := by omega
      have h1 := eraseMulti_of (eraseBlocks_AP S pre mid post b1 m hm p2 i2 t2 y2 vd vb hb0 c fr ev nx _ (by rw [e]) h)
      simp only [e1, Nat.add_zero]
      refine Runs.imp h1 (fun r s' hh => hh.cast (splice_mk (cells pre) (b1.cells ++ (cells mid ++ (y2 :: vd).map (fun v => some (t2, v)))) (vb.map (fun v => some (t2, v)) ++ cells post) ?_ ?_ ?_ ?_))
      · rw [e]; simp [List.replicate_add, List.replicate_succ, -List.replicate_append_replicate]
      · simp [hpl]
      · simp [hml, hc1, hc2] at hk ⊢; omega
      · simp [-List.replicate_append_replicate]
  · rcases hd2 with hb0 | ⟨p2, k2, rfl, hb0⟩ | ⟨p2, i2, t2, y2, vd, vb, rfl, rfl, hb0⟩
    · have e1 : total pre + (a + (m + 1) + (total mid + d)) = total pre + (a + (m + 1 + (total mid + d))) := by omega
      have h1 := eraseMulti_of (eraseBlocks_NA S pre mid post p1 a m ha0 b2 d hb0 c fr ev nx _ (by rw [e]) h)
      simp only [e1, Nat.add_zero]
      refine Runs.imp h1 (fun r s' hh => hh.cast (splice_mk (cells pre ++ List.replicate a none) (List.replicate (m + 1) none ++ (cells mid ++ b2.cells)) (cells post) ?_ ?_ ?_ ?_))
      · rw [e]; simp [List.replicate_add, List.replicate_succ, -List.replicate_append_replicate]
      · simp [hpl]
      · simp [hml, hc1, hc2] at hk ⊢; omega
      · simp [-List.replicate_append_replicate]
    · have e1 : total pre + (a + (m + 1) + (total mid + d)) = total pre + (a + (m + 1 + (total mid + d))) := by omega
      have h1 := eraseMulti_of (eraseBlocks_NN S pre mid post p1 a m ha0 p2 d k2 hb0 c fr ev nx _ (by rw [e]) h)
      simp only [e1, Nat.add_zero]
      refine Runs.imp h1 (fun r s' hh => hh.cast (splice_mk (cells pre ++ List.replicate a none) (List.replicate (m + 1) none ++ (cells mid ++ List.replicate (d + 1) none)) (List.replicate k2 none ++ cells post) ?_ ?_ ?_ ?_))
      · rw [e]; simp [List.replicate_add, List.replicate_succ, -List.replicate_append_replicate]
      · simp [hpl]
      · simp [hml, hc1, hc2] at hk ⊢; omega
      · simp [-List.replicate_append_replicate]
    · have e1 : total pre + (a + (m + 1) + (total mid + vd.length)) = total pre + (a + (m + 1 + (total mid + vd.length))) := by omega
      have h1 := eraseMulti_of (eraseBlocks_NP S pre mid post p1 a m ha0 p2 i2 t2 y2 vd vb hb0 c fr ev nx _ (by rw [e]) h)
      simp only [e1, Nat.add_zero]
      refine Runs.imp h1 (fun r s' hh => hh.cast (splice_mk (cells pre ++ List.replicate a none) (List.replicate (m + 1) none ++ (cells mid ++ (y2 :: vd).map (fun v => some (t2, v)))) (vb.map (fun v => some (t2, v)) ++ cells post) ?_ ?_ ?_ ?_))
      · rw [e]; simp [List.replicate_add, List.replicate_succ, -List.replicate_append_replicate]
      · simp [hpl]
      · simp [hml, hc1, hc2] at hk ⊢; omega
      · simp [-List.replicate_append_replicate]
  · rcases hd2 with hb0 | ⟨p2, k2, rfl, hb0⟩ | ⟨p2, i2, t2, y2, vd, vb, rfl, rfl, hb0⟩
    · have e1 : total pre + (va.length + (vm.length + 1) + (total mid + d)) = total pre + (va.length + (vm.length + 1 + (total mid + d))) := by omega
      have h1 := eraseMulti_of (eraseBlocks_PA S pre mid post p1 i1 t1 y1 va vm ha0 b2 d hb0 c fr ev nx _ (by rw [e]) h)
      simp only [e1, Nat.add_zero]
      refine Runs.imp h1 (fun r s' hh => hh.cast (splice_mk (cells pre ++ va.map (fun v => some (t1, v))) ((y1 :: vm).map (fun v => some (t1, v)) ++ (cells mid ++ b2.cells)) (cells post) ?_ ?_ ?_ ?_))
      · rw [e]; simp [List.replicate_add, List.replicate_succ, -List.replicate_append_replicate]
      · simp [hpl]
      · simp [hml, hc1, hc2] at hk ⊢; omega
      · simp [-List.replicate_append_replicate]
    · have e1 : total pre + (va.length + (vm.length + 1) + (total mid + d)) = total pre + (va.length + (vm.length + 1 + (total mid + d))) := by omega
      have h1 := eraseMulti_of (eraseBlocks_PN S pre mid post p1 i1 t1 y1 va vm ha0 p2 d k2 hb0 c fr ev nx _ (by rw [e]) h)
      simp only [e1, Nat.add_zero]
      refine Runs.imp h1 (fun r s' hh => hh.cast (splice_mk (cells pre ++ va.map (fun v => some (t1, v))) ((y1 :: vm).map (fun v => some (t1, v)) ++ (cells mid ++ List.replicate (d + 1) none)) (List.replicate k2 none ++ cells post) ?_ ?_ ?_ ?_))
      · rw [e]; simp [List.replicate_add, List.replicate_succ, -List.replicate_append_replicate]
      · simp [hpl]
      · simp [hml, hc1, hc2] at hk ⊢; omega
      · simp [-List.replicate_append_replicate]
    · have e1 : total pre + (va.length + (vm.length + 1) + (total mid + vd.length)) = total pre + (va.length + (vm.length + 1 + (total mid + vd.length))) := by omega
      have h1 := eraseMulti_of (eraseBlocks_PP S pre mid post p1 i1 t1 y1 va vm ha0 p2 i2 t2 y2 vd vb hb0 c fr ev nx _ (by rw [e]) h)
      simp only [e1, Nat.add_zero]
      refine Runs.imp h1 (fun r s' hh => hh.cast (splice_mk (cells pre ++ va.map (fun v => some (t1, v))) ((y1 :: vm).map (fun v => some (t1, v)) ++ (cells mid ++ (y2 :: vd).map (fun v => some (t2, v)))) (vb.map (fun v => some (t2, v)) ++ cells post) ?_ ?_ ?_ ?_))
      · rw [e]; simp [List.replicate_add, List.replicate_succ, -List.replicate_append_replicate]
      · simp [hpl]
      · simp [hml, hc1, hc2] at hk ⊢; omega
      · simp [-List.replicate_append_replicate]

end Mdds.Mtv
