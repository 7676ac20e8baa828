import Verif.Mtv.GapLemmas
/-!
`transfer`: effect on source and destination.
-/
namespace Mdds.Mtv
open Mdds

set_option linter.unusedSimpArgs false
set_option linter.unusedVariables false
set_option linter.unusedSectionVars false

variable {α : Type} [DecidableEq α]

theorem Done.of_eff {S : Option Ty → Prop} {s s' : St α} {L X Y}
    (h : Eff S True True s s' L (X.filterMap id) (Y.filterMap id)) : Done S s s' L X Y :=
  ⟨h.tile, h.cur, h.sep, h.cells,
    ⟨fun z hz => by have := h.led trivial z hz; rwa [count_fm, count_fm] at this, h.evn, h.ev trivial⟩⟩

theorem Done.eff {S : Option Ty → Prop} {s s' : St α} {L X Y} (h : Done S s s' L X Y) :
    Eff S True True s s' L (X.filterMap id) (Y.filterMap id) :=
  Eff.of_led h.tile h.cur h.sep h.cells h.led

theorem Done.wf {S : Option Ty → Prop} {s s' : St α} {L X Y} (h : Done S s s' L X Y) : WF S s' :=
  ⟨h.tile, h.cur, h.sep⟩

/-- Separation and tiling around the slots. -/
theorem Emptied.around {S : Option Ty → Prop} {t t1 : St α} {d m r pre post x k}
    (h : Emptied S t t1 d m r pre post x k) :
    Sep S (pre ++ cut (total pre) x) ∧ Sep S (cut (total pre + x + (m + 1)) k ++ post) ∧
    Tile 0 (pre ++ cut (total pre) x) ∧ Tile (d + (m + 1)) (cut (total pre + x + (m + 1)) k ++ post) ∧
    t1.cur = d + (m + 1) + (k + total post) ∧ (∀ b ∈ pre, 0 < b.size) := by
  have hs := h.wf.sep
  have ht := h.wf.tile
  have hc := h.wf.cur
  have e := h.blocks
  rw [e] at hs ht hc
  simp at hs ht hc
  have hd := h.at_
  refine ⟨?_, ?_, ?_, ?_, by omega, ?_⟩
  · rcases Nat.eq_zero_or_pos x with rfl | hx
    · simpa using hs.1.1
    · rw [cut_pos _ hx]; simp [hs.1]
  · rcases Nat.eq_zero_or_pos k with rfl | hx
    · have := hs.2
      simp [SR, Sep] at this ⊢
      exact this.tail
    · rw [cut_pos _ hx]; simpa using hs.2
  · simp [ht.1, tile_cut]
  · rw [tile_append]
    refine ⟨tile_eq (tile_cut _ _) (by omega), tile_eq ht.2.2 (by simp; omega)⟩
  · intro b hb
    obtain ⟨u, v, rfl⟩ := List.append_of_mem hb
    have := ht.1
    simp at this
    exact this.2.2.1.1

/-- One block put into the slot, and merged. -/
theorem dstOne {S : Option Ty → Prop} {t t1 t3 : St α} {d m r pre post x k}
    (h : Emptied S t t1 d m r pre post x k) (id : Nat) (ty : Ty) (vs : List α) (hv : vs.length = m + 1)
    (e3 : t3.blocks = (pre ++ cut (total pre) x) ++ ⟨d, m + 1, some ⟨id, ty, vs⟩⟩ :: (cut (total pre + x + (m + 1)) k ++ post))
    (hc : t3.cur = t1.cur) (hf : t3.freed = t1.freed) (he : t3.evs = t1.evs ++ [.acq id]) :
    Runs (mergeWithAdjacent (pre ++ cut (total pre) x).length t3) (fun _ t4 =>
      Done S t t4 (splice (cells t.blocks) d (m + 1) (vs.map (fun v => some (ty, v)))) (vs.map (fun v => some (ty, v))) []) := by
  obtain ⟨h1, h2, h3, h4, h5, h6⟩ := h.around
  have hd := h.at_
  have ht3 : Tile 0 t3.blocks := by
    rw [e3, tile_append]
    refine ⟨h3, ⟨by simp; omega, by simp [hv], tile_eq h4 (by simp; omega)⟩⟩
  have hc3 : t3.cur = total t3.blocks := by
    rw [hc, h5, e3]; simp; omega
  have := merge_ok S [] (pre ++ cut (total pre) x) ⟨d, m + 1, some ⟨id, ty, vs⟩⟩
    (cut (total pre + x + (m + 1)) k ++ post) t3 (.inl rfl) (by simpa using e3) ht3 hc3 h1 h2
  simp only [List.length_nil, Nat.zero_add] at this
  refine Runs.imp this ?_
  intro r' t4 hm
  obtain ⟨N, hN, hsep, _⟩ := hm.keep
  have hcells : cells t4.blocks = splice (cells t.blocks) d (m + 1) (vs.map (fun v => some (ty, v))) := by
    rw [hm.eff.cells, e3]
    unfold splice
    rw [← h.above, ← h.below]
    simp
  have l1 : Led t1 t3 (vs.map (fun v => some (ty, v))) [] := by
    refine ⟨?_, ?_, ?_⟩
    · intro z hz
      rw [hf, e3, h.blocks]
      simp [List.count_append, List.count_replicate]
      omega
    · rw [he, e3, h.blocks]; simp; omega
    · intro i
      rw [he, e3, h.blocks]; simp [List.count_append, List.count_cons]; omega
  refine ⟨hm.eff.tile, hm.eff.cur, by rw [hN]; simpa using hsep, hcells, ?_⟩
  simpa using (h.led.trans l1).trans (Led.of_eff hm.eff)

theorem src_split {S : Option Ty → Prop} {s : St α} (h : WF S s) {pre post : List (Blk α)} {b : Blk α}
    (e : s.blocks = pre ++ b :: post) :
    Sep S pre ∧ Sep S post ∧ Tile 0 pre ∧ Tile (total pre + b.size) post ∧
      s.cur = total pre + (b.size + total post) ∧ SL S pre b.ty ∧ SR S b.ty post := by
  have hs := h.sep
  have ht := h.tile
  have hc := h.cur
  rw [e] at hs ht hc
  simp at hs ht hc
  refine ⟨hs.1.1, ?_, ht.1, ht.2.2.2, hc, hs.1, hs.2⟩
  have := hs.2
  simp [SR, Sep] at this ⊢
  exact this.tail

theorem mid_of {S : Option Ty → Prop} {s : St α} (h : WF S s) {pre post : List (Blk α)} {b : Blk α}
    (e : s.blocks = pre ++ b :: post) {a m : Nat} (ha : a + m < b.size) :
    ((cells s.blocks).drop (total pre + a)).take (m + 1) = (b.cells.drop a).take (m + 1) := by
  obtain ⟨ok, hpl, _⟩ := ok_of_split h e
  have hb := cells_length_of_ok ok
  rw [e]
  simp only [cells_append, cells_cons]
  rw [List.drop_append, List.drop_of_length_le (by omega), List.nil_append, hpl, List.drop_append,
    List.take_append_of_le_length (by simp; omega)]
  congr 2
  omega

theorem receive_ok (A R : List (Blk α)) (p n : Nat) (d : EB α) (c fr ev nx) :
    receive A.length d ⟨A ++ ⟨p, n, none⟩ :: R, c, fr, ev, nx⟩ =
      .ok ((), ⟨A ++ ⟨p, n, some d⟩ :: R, c, fr, ev ++ [.acq d.id], nx⟩) := by
  simp [mev]

theorem newBlockAt_ok (A R : List (Blk α)) (p n : Nat) (ty : Ty) (vs : List α) (c fr ev nx) :
    newBlockAt A.length ty vs ⟨A ++ ⟨p, n, none⟩ :: R, c, fr, ev, nx⟩ =
      .ok ((), ⟨A ++ ⟨p, n, some ⟨nx, ty, vs⟩⟩ :: R, c, fr, ev ++ [.acq nx], nx + 1⟩) := by
  simp [mev]

theorem transferSingle_ok {S : Option Ty → Prop} (hS : ∀ o, S o → o ≠ none) {s t : St α} (hs : WF S s) (ht : WF S t)
    {pre post : List (Blk α)} {b : Blk α} (e : s.blocks = pre ++ b :: post) {a m d : Nat}
    (ha : a + m < b.size) (hd : d + (m + 1) ≤ t.cur) (X : List (Option (Ty × α)))
    (hX : X = ((cells s.blocks).drop (total pre + a)).take (m + 1)) :
    Runs2 (transferSingle (total pre + a) (total pre + a + m) pre.length d s t) (fun r s' t' =>
      Done S s s' (splice (cells s.blocks) (total pre + a) (m + 1) (List.replicate (m + 1) none)) [] X ∧
      Done S t t' (splice (cells t.blocks) d (m + 1) X) X [] ∧ Holds s' r (total pre + a)) := by
  obtain ⟨ok, hpl, hp⟩ := ok_of_split hs e
  have hcl := cells_length_of_ok ok
  rw [mid_of hs e ha] at hX
  obtain ⟨q1, q2, q3, q4, q5, q6, q7⟩ := src_split hs e
  have hlen : total pre + a + m - (total pre + a) + 1 = m + 1 := by omega
  have hg : getB pre.length s = .ok (b, s) := by
    have : s = ⟨pre ++ b :: post, s.cur, s.freed, s.evs, s.next⟩ := by rw [← e]
    rw [this]; simp [mev]
  unfold transferSingle
  simp only [hlen, bind2_apply, onSrc_ap, hg, bind2_ok]
  refine Runs2.bind (Runs.dst (dstEmpty hS ht hd) s) ?_
  rintro r s0 t1 ⟨⟨pre', post', x, k, he⟩, rfl⟩
  rcases b with ⟨p, sz, _ | ⟨id, ty, vs⟩⟩
  · simp only [m2pure_apply, runs2_ok]
    have hX' : X = List.replicate (m + 1) none := by
      rw [hX]
      simp only [Blk.cells]
      rw [List.drop_replicate, List.take_replicate]
      congr 1; simp at ha; omega
    have hm := mid_of hs e ha
    rw [← hX, hX'] at hm
    have hsp : splice (cells s0.blocks) (total pre + a) (m + 1) (List.replicate (m + 1) none) = cells s0.blocks := by
      unfold splice
      rw [← hm, ← List.drop_drop (i := m + 1), List.take_append_drop, List.take_append_drop]
    refine ⟨⟨hs.tile, hs.cur, hs.sep, hsp.symm, ?_⟩, ⟨he.wf.tile, he.wf.cur, he.wf.sep, ?_, ?_⟩, ?_⟩
    · refine ⟨?_, by omega, ?_⟩
      · intro z hz; rw [hX']; simp [List.count_replicate]
      · intro i; rfl
    · rw [hX', he.blocks]
      unfold splice
      rw [← he.above, ← he.below]
      simp [rep_app]
    · have := he.led
      refine ⟨?_, this.evn, this.ev⟩
      intro z hz
      have := this.led z hz
      rw [hX']; simpa [List.count_replicate] using this
    · refine ⟨⟨p, sz, none⟩, by rw [e]; simp, ?_⟩
      simp at hp ha
      simp; omega
  · have hv : vs.length = sz := ok.2 _ rfl
    simp only at hp ha
    have hX' : X = ((vs.drop a).take (m + 1)).map (fun v => some (ty, v)) := by
      rw [hX]; simp only [Blk.cells, List.map_drop, List.map_take]
    have hvl : ((vs.drop a).take (m + 1)).length = m + 1 := by simp; omega
    have t1e : t1 = ⟨pre' ++ ⟨total pre', x + (m + 1 + k), none⟩ :: post', t1.cur, t1.freed, t1.evs, t1.next⟩ := by
      rw [← he.blocks]
    have hsl := slotFor_ok pre' post' (total pre') x m k t1.cur t1.freed t1.evs t1.next
    rw [← t1e, ← he.at_, ← he.index] at hsl
    simp only [bind2_apply, onDst_ok hsl, bind2_ok]
    by_cases hw : total pre + a - p = 0 ∧ m + 1 = sz
    · rw [if_pos hw]
      obtain rfl : a = 0 := by omega
      obtain rfl : m + 1 = sz := hw.2
      have hv' : (vs.drop 0).take (m + 1) = vs := by
        rw [List.drop_zero, List.take_of_length_le (by omega)]
      rw [hv'] at hX' hvl
      have hho : handOver pre.length ⟨id, ty, vs⟩ s0 = .ok ((), ⟨pre ++ ⟨p, m + 1, none⟩ :: post, s0.cur, s0.freed,
          s0.evs ++ [.rel id], s0.next⟩) := by
        have : s0 = ⟨pre ++ ⟨p, m + 1, some ⟨id, ty, vs⟩⟩ :: post, s0.cur, s0.freed, s0.evs, s0.next⟩ := by rw [← e]
        rw [this]; simp [mev]
      simp only [bind2_apply, onDst_ok (receive_ok _ _ _ _ _ _ _ _ _), onSrc_ok hho, bind2_ok]
      refine Runs2.bind (Runs.dst (dstOne (t3 := ⟨(pre' ++ cut (total pre') x) ++ ⟨d, m + 1, some ⟨id, ty, vs⟩⟩ ::
        (cut (d + (m + 1)) k ++ post'), t1.cur, t1.freed, t1.evs ++ [.acq id], t1.next⟩) he id ty vs hvl
        (by simp only [he.at_]) rfl rfl rfl) _) ?_
      rintro _ _ t4 ⟨hdst, rfl⟩
      have hmr := merge_ok S [] pre ⟨p, m + 1, none⟩ post ⟨pre ++ ⟨p, m + 1, none⟩ :: post, s0.cur, s0.freed,
          s0.evs ++ [.rel id], s0.next⟩ (.inl rfl) (by simp)
          (by
            rw [tile_append]
            exact ⟨q3, by simp [hp], ⟨by simp, by simp⟩, tile_eq q4 (by simp)⟩)
          (by simp only [total_append, total_cons]; simpa using q5) q1 q2
      simp only [List.length_nil, Nat.zero_add] at hmr
      refine Runs2.bind (Runs.src hmr _) ?_
      rintro o s4 _ ⟨hm, rfl⟩
      simp only [m2pure_apply, runs2_ok]
      refine ⟨?_, ?_, ?_⟩
      · obtain ⟨N, hN, hsep, _⟩ := hm.keep
        refine ⟨hm.eff.tile, hm.eff.cur, by rw [hN]; simpa using hsep, ?_, ?_⟩
        · rw [hm.eff.cells]
          refine splice_mk (cells pre) (vs.map (fun v => some (ty, v))) (cells post) ?_ (by simp [hpl]) (by simp [hv]) ?_
          · rw [e]; simp
          · simp
        · have l1 : Led s0 ⟨pre ++ ⟨p, m + 1, none⟩ :: post, s0.cur, s0.freed, s0.evs ++ [.rel id], s0.next⟩ []
              (vs.map (fun v => some (ty, v))) := by
            refine ⟨?_, ?_, ?_⟩
            · intro z hz
              rw [e]
              simp [List.count_append, List.count_replicate]
              omega
            · rw [e]; simp; omega
            · intro i
              rw [e]; simp [List.count_append, List.count_cons]; omega
          rw [hX']
          simpa using l1.trans (Led.of_eff hm.eff)
      · rw [hX']; exact hdst
      · simpa [hp] using hm.holds
    · rw [if_neg hw]
      have hr : rangeOf pre.length (total pre + a - p) (m + 1) ty s0 = .ok ((vs.drop a).take (m + 1), s0) := by
        have : s0 = ⟨pre ++ ⟨p, sz, some ⟨id, ty, vs⟩⟩ :: post, s0.cur, s0.freed, s0.evs, s0.next⟩ := by rw [← e]
        have hpa : total pre + a - p = a := by omega
        rw [hpa, this]; simp [mev]; omega
      simp only [bind2_apply, onSrc_ok hr, bind2_ok]
      simp only [onDst_ok (newBlockAt_ok _ _ _ _ _ _ _ _ _ _), bind2_ok]
      refine Runs2.bind (Runs.dst (dstOne (t3 := ⟨(pre' ++ cut (total pre') x) ++
        ⟨d, m + 1, some ⟨t1.next, ty, (vs.drop a).take (m + 1)⟩⟩ ::
        (cut (d + (m + 1)) k ++ post'), t1.cur, t1.freed, t1.evs ++ [.acq t1.next], t1.next + 1⟩) he t1.next ty _ hvl
        (by simp only [he.at_]) rfl rfl rfl) _) ?_
      rintro _ _ t4 ⟨hdst, rfl⟩
      refine Runs2.imp (Runs.src (setEmptySingle_ok hS hs e ha false) t4) ?_
      rintro r' s' t' ⟨⟨h1, h2⟩, rfl⟩
      refine ⟨Done.of_eff (X := []) (by
        have hm := mid_of hs e ha
        rw [hX, ← hm]
        simpa [valsIn] using h1), ?_, h2⟩
      rw [hX']; exact hdst

theorem Sep.tail {S : Option Ty → Prop} {b : Blk α} {l : List (Blk α)} (h : Sep S (b :: l)) : Sep S l := by
  simp [SR, Sep] at h ⊢
  exact h.tail

/-- Several blocks put into the slots, and merged. -/
theorem dstMany {S : Option Ty → Prop} {t t1 t6 : St α} {d m r pre post x k}
    (h : Emptied S t t1 d m r pre post x k) (L : List (Blk α)) (b : Blk α) (hL : L ≠ []) (hs : Sep S L)
    (hT : Tile d (L ++ [b])) (hl : total L + b.size = m + 1) (X : List (Option (Ty × α))) (hX : X = cells L ++ b.cells)
    (e6 : t6.blocks = (pre ++ cut (total pre) x) ++ (L ++ b :: (cut (total pre + x + (m + 1)) k ++ post)))
    (hc : t6.cur = t1.cur) (l : Led t1 t6 X []) :
    Runs (((do
      let _ ← mergeWithAdjacent ((pre ++ cut (total pre) x).length + L.length)
      let _ ← mergeWithAdjacent (pre ++ cut (total pre) x).length
      M.pure ()) : M α Unit) t6) (fun _ t' => Done S t t' (splice (cells t.blocks) d (m + 1) X) X []) := by
  obtain ⟨h1, h2, h3, h4, h5, h6⟩ := h.around
  have hd := h.at_
  simp only [tile_append, tile_cons] at hT
  have ht6 : Tile 0 t6.blocks := by
    rw [e6]
    simp only [tile_append (a := pre ++ cut (total pre) x)]
    refine ⟨h3, ?_⟩
    simp only [tile_append (a := L), tile_cons]
    refine ⟨tile_eq hT.1 (by simp; omega), by rw [hT.2.1]; simp; omega, hT.2.2.1, tile_eq h4 (by simp; omega)⟩
  have hc6 : t6.cur = total t6.blocks := by
    rw [hc, h5, e6]; simp; omega
  simp only [bind_apply]
  refine Runs.bind (merge_ok S (pre ++ cut (total pre) x) L b _ t6 (.inr hL) e6 ht6 hc6 hs h2) ?_
  intro r1 t7 m1
  obtain ⟨N, hN, hsep, hne⟩ := m1.keep
  rcases N with _ | ⟨n0, N⟩
  · exact absurd rfl hne
  have m2 := merge_ok S [] (pre ++ cut (total pre) x) n0 N t7 (.inl rfl) (by simpa using hN) m1.eff.tile m1.eff.cur h1
    hsep.tail
  simp only [List.length_nil, Nat.zero_add] at m2
  refine Runs.bind m2 ?_
  intro r2 t8 m2
  obtain ⟨N', hN', hsep', _⟩ := m2.keep
  refine ⟨(), t8, rfl, ?_⟩
  refine ⟨m2.eff.tile, m2.eff.cur, by rw [hN']; simpa using hsep', ?_, ?_⟩
  · rw [m2.eff.cells, m1.eff.cells, e6, hX]
    unfold splice
    rw [← h.above, ← h.below]
    simp
  · simpa using ((h.led.trans l).trans (Led.of_eff m1.eff)).trans (Led.of_eff m2.eff)

theorem transferMulti_ok {S : Option Ty → Prop} (hS : ∀ o, S o → o ≠ none) {s t : St α} (hs : WF S s) (ht : WF S t)
    {pre mid post : List (Blk α)} {b b2 : Blk α} (e : s.blocks = pre ++ b :: (mid ++ b2 :: post)) {a m d dd : Nat}
    (ha : a < b.size) (hm : a + m = b.size + (total mid + dd)) (hdd : dd < b2.size) (hd : d + (m + 1) ≤ t.cur)
    (X : List (Option (Ty × α))) (hX : X = ((cells s.blocks).drop (total pre + a)).take (m + 1)) :
    Runs2 (transferMulti (total pre + a) (total pre + a + m) pre.length (pre.length + (mid.length + 1)) d s t)
      (fun r s' t' =>
      Done S s s' (splice (cells s.blocks) (total pre + a) (m + 1) (List.replicate (m + 1) none)) [] X ∧
      Done S t t' (splice (cells t.blocks) d (m + 1) X) X [] ∧ Holds s' r (total pre + a)) := by
  obtain ⟨ok, hpl, hp⟩ := ok_of_split hs e
  obtain ⟨q1, _, q3, q4, q5, q6, q7⟩ := src_split hs e
  simp only [tile_append, tile_cons, SR_append, total_append, total_cons] at q4 q5 q7
  obtain ⟨q4, p2, ok2, q8⟩ := q4
  obtain ⟨q7, q9⟩ := q7
  have okm : ∀ y ∈ mid, y.ok := by
    intro y hy
    obtain ⟨u, v, rfl⟩ := List.append_of_mem hy
    simp at q4
    exact q4.2.2.1
  have hcm := tile_cells_length q4
  have hcl := cells_length_of_ok ok
  have hcl2 := cells_length_of_ok ok2
  have hXe : X = b.cells.drop a ++ (cells mid ++ b2.cells.take (dd + 1)) := by
    rw [hX, e]
    simp only [cells_append, cells_cons]
    rw [List.drop_append, List.drop_of_length_le (by omega), List.nil_append, hpl,
      show total pre + a - total pre = a by omega, List.drop_append,
      show a - b.cells.length = 0 by omega, List.drop_zero, List.take_append, List.take_of_length_le (by simp; omega),
      List.take_append, List.take_of_length_le (by simp; omega), List.take_append_of_le_length (by simp; omega)]
    congr 3
    simp; omega
  have hlen : total pre + a + m - (total pre + a) + 1 = m + 1 := by omega
  have hn : pre.length + (mid.length + 1) - pre.length + 1 = (mid.length + 1) + 1 := by omega
  have hn2 : mid.length + 1 + 1 - 2 = mid.length := by omega
  unfold transferMulti
  simp only [hlen, hn, hn2, bind2_apply]
  refine Runs2.bind (Runs.dst (dstEmpty hS ht hd) s) ?_
  rintro r s0 t1 ⟨⟨pre', post', x, k, he⟩, rfl⟩
  have har := he.around
  have t1e : t1 = ⟨pre' ++ ⟨total pre', x + (m + 1 + k), none⟩ :: post', t1.cur, t1.freed, t1.evs, t1.next⟩ := by
    rw [← he.blocks]
  obtain ⟨z, Z, hsl, hZl, hzn, hZn, hz0⟩ := slotsFor_ok pre' post' (total pre') x m k (mid.length + 1) rfl t1.cur t1.freed
    t1.evs t1.next har.2.2.2.2.2
  rw [← t1e, ← he.at_, ← he.index] at hsl
  simp only [bind2_apply, onDst_ok hsl, bind2_ok]
  obtain ⟨Z1, z2, rfl⟩ : ∃ Z1 z2, Z = Z1 ++ [z2] := by
    rcases List.eq_nil_or_concat Z with rfl | ⟨Z1, z2, rfl⟩
    · simp at hZl
    · exact ⟨Z1, z2, by simp⟩
  have hZ1 : Z1.length = mid.length := by simpa using hZl
  generalize hTA : pre' ++ cut (total pre') x = TA at *
  generalize hR : cut (d + (m + 1)) k ++ post' = R at *
  have hR' : cut (total pre' + x + (m + 1)) k ++ post' = R := by rw [← he.at_]; exact hR
  have hTt : total TA = d := by rw [← hTA, he.at_]; simp
  -- first block
  obtain ⟨b', m1, s3, t3, f1, f2, f3, f4, f5, f6, f7, f8, f9, f10⟩ :=
    moveFirst_ok pre (mid ++ b2 :: post) TA (Z1 ++ z2 :: R) b z a ok ha hzn har.2.2.1 hz0 s0
      ⟨TA ++ z :: (Z1 ++ [z2] ++ R), t1.cur, t1.freed, t1.evs, t1.next⟩ e (by simp)
  rw [hp] at f1
  simp only [bind2_apply, f1, bind2_ok]
  have hg : (do
      let b ← getB TA.length
      M.pure (b.pos + b.size) : M α Nat) t3 = .ok (m1.pos + m1.size, t3) := by
    have : t3 = ⟨TA ++ m1 :: (Z1 ++ z2 :: R), t3.cur, t3.freed, t3.evs, t3.next⟩ := by rw [← f4]
    rw [this]; simp [mev]
  simp only [bind2_apply, onDst_ok hg, bind2_ok]
  -- blocks between
  obtain ⟨M', s4, t4, g1, g2, g3, g4, g5, g6, g7, g8, g9⟩ :=
    moveMid_ok mid (pre ++ [b']) (b2 :: post) (TA ++ [m1]) (z2 :: R) Z1 (m1.pos + m1.size) s3 t3 hZ1
      (fun z hz => hZn z (by simp [hz])) okm (by simpa using f2) (by simpa using f4)
  simp only [List.length_append, List.length_cons, List.length_nil, Nat.zero_add] at g1
  simp only [bind2_apply, g1, bind2_ok]
  have hm1 := f8.size
  have hT1 : Tile 0 (TA ++ m1 :: retile (m1.pos + m1.size) mid) := by
    rw [tile_append]
    refine ⟨har.2.2.1, by rw [f8.pos]; omega, f8.ok, ?_⟩
    exact tile_eq (retile_tile mid _ okm) (by rw [f8.pos]; omega)
  -- last block
  obtain ⟨b2', m2, s5, t5, k1, k2, k3, k4, k5, k6, k7, k8, k9, k10⟩ :=
    moveLast_ok (pre ++ b' :: M') post (TA ++ m1 :: retile (m1.pos + m1.size) mid) R b2 z2 dd ok2 hdd
      (hZn z2 (by simp)) hT1 s4 t4 (by simpa using g2) (by simpa using g6)
  rw [show b2.pos + dd = total pre + a + m by omega] at k1
  simp only [List.length_append, List.length_cons, retile_length, g4] at k1
  rw [show TA.length + (mid.length + 1 + 1) - 1 = TA.length + (mid.length + 1) by omega]
  simp only [bind2_apply, k1, bind2_ok]
  have e6 : t5.blocks = TA ++ ((m1 :: retile (m1.pos + m1.size) mid) ++ m2 :: R) := by
    rw [k4]; simp
  have hm2 := k8.size
  have hdst := dstMany (t6 := t5) he (m1 :: retile (m1.pos + m1.size) mid) m2 (by simp)
    (by
      have := q7.sr
      simp only [Sep_cons, f8.ty]
      unfold SR at this ⊢
      rwa [retile_ty])
    (by
      rw [tile_append]
      have h1 := hT1
      rw [tile_append] at h1
      refine ⟨tile_eq h1.2 (by omega), ?_, k8.ok, trivial⟩
      rw [k8.pos]; simp; omega)
    (by
      simp only [total_cons, retile_total, hm1, hm2, List.length_drop, List.length_take]; omega) X
    (by rw [hXe, k8.cells, cells_cons, f8.cells, retile_cells]; simp)
    (by rw [hTA, hR']; exact e6) (by rw [k5, g7, f5])
    (by
      rw [hXe]
      have l0 : Led t1 ⟨TA ++ z :: (Z1 ++ [z2] ++ R), t1.cur, t1.freed, t1.evs, t1.next⟩ [] [] := by
        have hcz : cells Z1 = [] := nils_cells _ (fun y hy => hZn y (by simp [hy]))
        have hiz : ids Z1 = [] := nils_ids _ (fun y hy => hZn y (by simp [hy]))
        have hz2 : z2.nil := hZn z2 (by simp)
        refine ⟨?_, ?_, ?_⟩
        · intro y hy
          rw [he.blocks, ← hTA, ← hR]
          simp [List.count_append, List.count_replicate, hcz, nil_cells hzn, nil_cells hz2]
        · rw [he.blocks, ← hTA, ← hR]
          simp [hiz, nil_ids hzn, nil_ids hz2]
        · intro i
          rw [he.blocks, ← hTA, ← hR]
          simp [hiz, nil_ids hzn, nil_ids hz2]
      simpa using ((l0.trans f7).trans g9).trans k7)
  rw [hTA] at hdst
  simp only [List.length_cons, retile_length] at hdst
  refine Runs2.bind (Runs.dst hdst s5) ?_
  rintro _ s5 t8 ⟨hdone, rfl⟩
  have hA0 : a = 0 → b'.nil := f9
  have hA1 := f10
  have hB0 : ¬ dd + 1 < b2.size → b2'.nil := fun h => k9 (by omega)
  have hsrc := closeGap_ok (S := S) (fun h => hS _ h rfl) pre M' post b' b2' (decide (a ≠ 0)) (decide (dd + 1 < b2.size))
    (m + 1) s5 (by simpa using k2) g5 (by intro h; exact f9 (by simpa using h)) (by intro h; exact hB0 (by simpa using h))
    (pre ++ if a ≠ 0 then [b'] else []) ((if dd + 1 < b2.size then [b2'] else []) ++ post) (by simp) (by simp)
    (by
      rintro rfl ⟨h1, h2, h3, h4⟩
      have hmid : mid = [] := by simpa using g4.symm
      subst hmid
      have h3 : a ≠ 0 := by simpa using h3
      have h4 : dd + 1 < b2.size := by simpa using h4
      rw [(f10 h3).ty] at h1
      rw [(k10 h4).ty] at h2
      rw [h1, h2] at q7
      simp [SM] at q7
      exact hS _ q7 rfl)
    (by
      by_cases h : a = 0
      · simpa [h] using q1
      · simpa [h, (f10 h).ty] using q6)
    (by
      by_cases h : dd + 1 < b2.size
      · simpa [h, (k10 h).ty] using q9
      · simp only [h, if_false, List.nil_append]
        have : Sep S (b2 :: post) := by simpa using q9
        exact this.tail)
    (by
      by_cases h : a = 0
      · simpa [h] using q3
      · simp only [ne_eq, h, not_false_eq_true, if_true]
        rw [tile_append]
        exact ⟨q3, by rw [(f10 h).pos]; omega, (f10 h).ok, trivial⟩)
    (by
      have hta : total (pre ++ if a ≠ 0 then [b'] else []) = total pre + a := by
        by_cases h : a = 0
        · simp [h]
        · have := (f10 h).size
          simp [h, this]; omega
      rw [hta]
      by_cases h : dd + 1 < b2.size
      · have := (k10 h).size
        simp only [h, if_true, List.cons_append, List.nil_append, tile_cons]
        refine ⟨?_, (k10 h).ok, tile_eq q8 ?_⟩
        · rw [(k10 h).pos]; omega
        · rw [this]; simp; omega
      · simp only [h, if_false, List.nil_append]
        exact tile_eq q8 (by omega))
    (by omega)
    (by
      rw [k3, g3, f3, q5]
      by_cases h : a = 0
      · by_cases h' : dd + 1 < b2.size
        · have := (k10 h').size
          simp [h, h', this]; omega
        · simp [h, h']; omega
      · have h1 := (f10 h).size
        by_cases h' : dd + 1 < b2.size
        · have := (k10 h').size
          simp [h, h', this, h1]; omega
        · simp [h, h', h1]; omega)
  rw [g4] at hsrc
  refine Runs2.imp (Runs.src hsrc t8) ?_
  rintro r' s' t' ⟨⟨h1, h2⟩, rfl⟩
  have hA : cells (pre ++ if a ≠ 0 then [b'] else []) = cells pre ++ b.cells.take a := by
    by_cases h : a = 0
    · simp [h]
    · simp [h, (f10 h).cells]
  have hta : total (pre ++ if a ≠ 0 then [b'] else []) = total pre + a := by
    by_cases h : a = 0
    · simp [h]
    · have := (f10 h).size
      simp [h, this]; omega
  have hB : cells ((if dd + 1 < b2.size then [b2'] else []) ++ post) = b2.cells.drop (dd + 1) ++ cells post := by
    by_cases h : dd + 1 < b2.size
    · simp [h, (k10 h).cells]
    · simp [h]; omega
  rw [hta] at h2
  refine ⟨⟨h1.tile, h1.cur, h1.sep, ?_, ?_⟩, hdone, h2⟩
  · rw [h1.cells, hA, hB]
    refine splice_mk (cells pre ++ b.cells.take a) X (b2.cells.drop (dd + 1) ++ cells post) ?_ (by simp; omega) ?_ (by simp)
    · rw [hXe, e]
      simp only [cells_append, cells_cons]
      conv_lhs => rw [← List.take_append_drop a b.cells, ← List.take_append_drop (dd + 1) b2.cells]
      simp only [List.append_assoc]
    · rw [hXe]; simp; omega
  · rw [hXe]
    simpa using ((f6.trans g8).trans k6).trans h1.led

/-! ### The public member -/

theorem transfer_in {S : Option Ty → Prop} (hS : ∀ o, S o → o ≠ none) {s t : St α} (hs : WF S s) (ht : WF S t)
    (h : At) {a e d : Nat} (hae : a ≤ e) (he : e < s.cur) (hd : d + (e - a + 1) ≤ t.cur) :
    Runs2 (transfer false h a e d s t) (fun r s' t' =>
      Done S s s' (splice (cells s.blocks) a (e - a + 1) (List.replicate (e - a + 1) none)) []
        (((cells s.blocks).drop a).take (e - a + 1)) ∧
      Done S t t' (splice (cells t.blocks) d (e - a + 1) (((cells s.blocks).drop a).take (e - a + 1)))
        (((cells s.blocks).drop a).take (e - a + 1)) [] ∧ Holds s' r a) := by
  obtain ⟨pre, b, post, a, eb, rfl, ha, hl, hn⟩ := lookup_in hs h (pos := a) (by omega)
  obtain ⟨m, rfl⟩ : ∃ m, e = total pre + a + m := ⟨e - (total pre + a), by omega⟩
  have hlen : total pre + a + m - (total pre + a) + 1 = m + 1 := by omega
  rw [hlen] at hd ⊢
  have h0 : ¬ (total pre + a > total pre + a + m) := by omega
  have hdd : ¬ (d + (m + 1) - 1 ≥ t.cur) := by omega
  have hnb : ∀ x : St α, nBlocks x = .ok (x.blocks.length, x) := fun x => nBlocks_ap x
  simp only [transfer, if_neg (by decide : ¬ (false = true)), Bool.false_eq_true, if_false, bind2_apply, onSrc_ok hl, bind2_ok,
    onSrc_ok (hnb s), if_neg hn, transferImpl, if_neg h0, hlen]
  rcases second hs eb ha he with ⟨hlt, hg⟩ | ⟨mid, b2, post', dd, e', hm, hlt, hg⟩
  · simp only [onSrc_ok hg, bind2_ok, bind2_apply, onSrc_ok (hnb s), if_neg hn, onDst_ok (curSize_ap t), if_neg hdd, if_true]
    exact transferSingle_ok hS hs ht eb hlt hd _ rfl
  · have h6 : ¬ (pre.length + (mid.length + 1) = s.blocks.length) := by rw [e']; simp
    have h7 : ¬ (pre.length = pre.length + (mid.length + 1)) := by omega
    simp only [onSrc_ok hg, bind2_ok, bind2_apply, onSrc_ok (hnb s), if_neg h6, onDst_ok (curSize_ap t), if_neg hdd, if_neg h7]
    exact transferMulti_ok hS hs ht e' ha hm hlt hd _ rfl

theorem transfer_out {S : Option Ty → Prop} {s t : St α} (hs : WF S s)
    (h : At) (hn : h = none ∨ 0 < s.cur) {a e d : Nat} (hb : ¬ (a ≤ e ∧ e < s.cur ∧ d + (e - a + 1) ≤ t.cur)) :
    transfer false h a e d s t = .err .outOfRange s t := by
  have hnb : ∀ x : St α, nBlocks x = .ok (x.blocks.length, x) := fun x => nBlocks_ap x
  by_cases h1 : a < s.cur
  · obtain ⟨pre, b, post, a, eb, rfl, ha, hl, hn⟩ := lookup_in hs h (pos := a) h1
    simp only [transfer, Bool.false_eq_true, if_false, bind2_apply, onSrc_ok hl, bind2_ok, onSrc_ok (hnb s), if_neg hn, transferImpl]
    by_cases h2 : total pre + a > e
    · simp only [if_pos h2, throw2_apply]
    · by_cases h3 : e < s.cur
      · have hdd : d + (e - (total pre + a) + 1) - 1 ≥ t.cur := by omega
        obtain ⟨m, rfl⟩ : ∃ m, e = total pre + a + m := ⟨e - (total pre + a), by omega⟩
        rcases second hs eb ha h3 with ⟨hlt, hg⟩ | ⟨mid, b2, post', dd, e', hm, hlt, hg⟩
        · simp only [if_neg h2, onSrc_ok hg, bind2_ok, bind2_apply, onSrc_ok (hnb s), if_neg hn, onDst_ok (curSize_ap t), if_pos hdd, throw2_apply]
        · have h6 : ¬ (pre.length + (mid.length + 1) = s.blocks.length) := by rw [e']; simp
          simp only [if_neg h2, onSrc_ok hg, bind2_ok, bind2_apply, onSrc_ok (hnb s), if_neg h6, onDst_ok (curSize_ap t), if_pos hdd, throw2_apply]
      · have hg := getBlockPosition_end (row := e) (start := pre.length) (s := s) (by omega)
        simp only [if_neg h2, onSrc_ok hg, bind2_ok, bind2_apply, onSrc_ok (hnb s), if_true, throw2_apply]
  · have hl := lookup_out hs h (pos := a) (by omega) hn
    simp only [transfer, Bool.false_eq_true, if_false, bind2_apply, onSrc_ok hl, bind2_ok, onSrc_ok (hnb s), if_true, throw2_apply]

theorem transfer_self (h : At) (a e d : Nat) (s t : St α) : transfer true h a e d s t = .err .invalidArg s t := rfl

end Mdds.Mtv
