import Verif.Mtv.SwapMany
/-!
Range `swap`: one block against several, several against several, and the whole call.
-/
namespace Mdds.Mtv
open Mdds

set_option linter.unusedSimpArgs false
set_option linter.unusedVariables false
set_option linter.unusedSectionVars false

variable {α : Type} [DecidableEq α]

theorem hole_mk {S : Option Ty → Prop} {s s' : St α} (hs : WF S s) {A B : List (Blk α)} {X : List (Option (Ty × α))}
    (U : cells s.blocks = cells A ++ (X ++ cells B)) (e : s'.blocks = A ++ B) (hc : s'.cur = s.cur)
    (tA : Tile 0 A) (tB : Tile (total A + X.length) B) (sA : Sep S A) (sB : Sep S B) (l : Led s s' [] X)
    {a n : Nat} (ha : a = total A) (hn : n = X.length) :
    Hole S s s' A B a n X := by
  subst ha hn
  have h1 := tile_cells_length tA
  have h2 := tile_cells_length tB
  have h3 := tile_cells_length hs.tile
  obtain ⟨q1, q2, q3⟩ := three (cells A) X (cells B) h1 rfl
  rw [← U] at q1 q2 q3
  refine ⟨e, ?_, sA, sB, tA, tB, rfl, q1.symm, q3.symm, l⟩
  rw [hc, hs.cur, ← h3, U]
  simp [h1, h2]

/-- Close a `hole` goal on a concrete state. -/
macro "hole_tac" : tactic => `(tactic|
  (refine hole_mk (by assumption) ?_ ?_ ?_ ?_ ?_ ?_ ?_ ⟨fun z hz => ?_, ?_, fun i => ?_⟩ ?_ ?_
   · simp [Blk.cells]
   · simp
   · simp
   · simp_all
   · simp_all
     try (and_intros <;> first | omega | exact tile_eq (by assumption) (by omega))
   · simp_all
   · simp_all
   · simp [Blk.cells, List.count_append, List.count_cons]; try omega
   · simp [Blk.ids]; try omega
   · simp [Blk.ids, List.count_append, List.count_cons]; try omega
   · simp
   · simp))

theorem hole_whole {S : Option Ty → Prop} (pre post : List (Blk α)) (p i n : Nat) (u : Ty) (y : α) (vm : List α) (c fr ev nx)
    (hn : n = vm.length + 1)
    (h : WF S ⟨pre ++ ⟨p, n, some ⟨i, u, y :: vm⟩⟩ :: post, c, fr, ev, nx⟩) :
    Runs (((do
      shrinkVals pre.length 0
      deleteElementBlock pre.length
      delB pre.length 1) : M α Unit) ⟨pre ++ ⟨p, n, some ⟨i, u, y :: vm⟩⟩ :: post, c, fr, ev, nx⟩) (fun _ s' =>
      Hole S ⟨pre ++ ⟨p, n, some ⟨i, u, y :: vm⟩⟩ :: post, c, fr, ev, nx⟩ s' pre post (total pre) (vm.length + 1)
        ((y :: vm).map fun v => some (u, v))) := by
  obtain ⟨q1, q2, q3, q4, q5, q6, q7⟩ := src_split h rfl
  subst hn
  simp [mev]
  hole_tac

theorem hole_top {S : Option Ty → Prop} (pre post : List (Blk α)) (p i n : Nat) (u : Ty) (y w : α) (vm vb : List α) (c fr ev nx)
    (hn : n = vm.length + 1 + (vb.length + 1))
    (h : WF S ⟨pre ++ ⟨p, n, some ⟨i, u, y :: (vm ++ w :: vb)⟩⟩ :: post, c, fr, ev, nx⟩) :
    Runs (((do
      eraseVals pre.length 0 (vm.length + 1)
      subSize pre.length (vm.length + 1)
      addPos pre.length (vm.length + 1)) : M α Unit) ⟨pre ++ ⟨p, n, some ⟨i, u, y :: (vm ++ w :: vb)⟩⟩ :: post, c, fr, ev, nx⟩)
      (fun _ s' =>
      Hole S ⟨pre ++ ⟨p, n, some ⟨i, u, y :: (vm ++ w :: vb)⟩⟩ :: post, c, fr, ev, nx⟩ s' pre
        (⟨total pre + (vm.length + 1), vb.length + 1, some ⟨i, u, w :: vb⟩⟩ :: post) (total pre) (vm.length + 1)
        ((y :: vm).map fun v => some (u, v))) := by
  obtain ⟨q1, q2, q3, q4, q5, q6, q7⟩ := src_split h rfl
  obtain ⟨ok, hpl, hp⟩ := ok_of_split h rfl
  subst hn
  simp at hp
  subst hp
  simp [mev]
  hole_tac

theorem hole_bottom {S : Option Ty → Prop} (pre post : List (Blk α)) (p i n : Nat) (u : Ty) (x y : α) (va vm : List α) (c fr ev nx)
    (hn : n = va.length + 1 + (vm.length + 1))
    (h : WF S ⟨pre ++ ⟨p, n, some ⟨i, u, x :: (va ++ y :: vm)⟩⟩ :: post, c, fr, ev, nx⟩) :
    Runs (((do
      shrinkVals pre.length (va.length + 1)
      setSize pre.length (va.length + 1)) : M α Unit) ⟨pre ++ ⟨p, n, some ⟨i, u, x :: (va ++ y :: vm)⟩⟩ :: post, c, fr, ev, nx⟩)
      (fun _ s' =>
      Hole S ⟨pre ++ ⟨p, n, some ⟨i, u, x :: (va ++ y :: vm)⟩⟩ :: post, c, fr, ev, nx⟩ s'
        (pre ++ [⟨total pre, va.length + 1, some ⟨i, u, x :: va⟩⟩])
        post (total pre + (va.length + 1)) (vm.length + 1)
        ((y :: vm).map fun v => some (u, v))) := by
  obtain ⟨q1, q2, q3, q4, q5, q6, q7⟩ := src_split h rfl
  obtain ⟨ok, hpl, hp⟩ := ok_of_split h rfl
  subst hn
  simp at hp
  subst hp
  simp [mev]
  hole_tac

theorem hole_mid {S : Option Ty → Prop} (pre post : List (Blk α)) (p i n : Nat) (u : Ty) (y : α) (va vm vb : List α) (c fr ev nx)
    (ha : va ≠ []) (hb : vb ≠ []) (hn : n = va.length + (vm.length + 1 + vb.length))
    (h : WF S ⟨pre ++ ⟨p, n, some ⟨i, u, va ++ (y :: (vm ++ vb))⟩⟩ :: post, c, fr, ev, nx⟩) :
    Runs (((do
      let _ ← setNewBlockToMiddle pre.length va.length (vm.length + 1) false
      deleteElementBlock (pre.length + 1)
      delB (pre.length + 1) 1) : M α Unit)
        ⟨pre ++ ⟨p, n, some ⟨i, u, va ++ (y :: (vm ++ vb))⟩⟩ :: post, c, fr, ev, nx⟩)
      (fun _ s' => ∃ i1 i2,
      Hole S ⟨pre ++ ⟨p, n, some ⟨i, u, va ++ (y :: (vm ++ vb))⟩⟩ :: post, c, fr, ev, nx⟩ s'
        (pre ++ [⟨total pre, va.length, some ⟨i1, u, va⟩⟩])
        (⟨total pre + va.length + (vm.length + 1), vb.length, some ⟨i2, u, vb⟩⟩ :: post)
        (total pre + va.length) (vm.length + 1)
        ((y :: vm).map fun v => some (u, v))) := by
  obtain ⟨q1, q2, q3, q4, q5, q6, q7⟩ := src_split h rfl
  obtain ⟨ok, hpl, hp⟩ := ok_of_split h rfl
  obtain rfl : n = va.length + (vm.length + (vb.length + 1)) := by omega
  simp at hp
  subst hp
  have ha' : 0 < va.length := List.length_pos_iff.2 ha
  have hb' : 0 < vb.length := List.length_pos_iff.2 hb
  by_cases hlt : vb.length < va.length
  · simp [mev, setNewBlockToMiddle, hlt, Nat.add_assoc, ha, hb]
    refine ⟨i, nx, ?_⟩
    hole_tac
  · simp [mev, setNewBlockToMiddle, hlt, Nat.add_assoc, ha, hb]
    refine ⟨nx, i, ?_⟩
    hole_tac

theorem rangeOf_mid (pre post : List (Blk α)) (p n i : Nat) (u : Ty) (va vm vb : List α) (y : α) (s : St α)
    (e : s.blocks = pre ++ ⟨p, n, some ⟨i, u, va ++ (y :: (vm ++ vb))⟩⟩ :: post) :
    rangeOf pre.length va.length (vm.length + 1) u s = .ok (y :: vm, s) := by
  have : s = ⟨pre ++ ⟨p, n, some ⟨i, u, va ++ y :: (vm ++ vb)⟩⟩ :: post, s.cur, s.freed, s.evs, s.next⟩ := by rw [← e]
  rw [this]; simp [mev]

theorem getB_at {pre post : List (Blk α)} {b : Blk α} {s : St α} (e : s.blocks = pre ++ b :: post) :
    getB pre.length s = .ok (b, s) := by
  have : s = ⟨pre ++ b :: post, s.cur, s.freed, s.evs, s.next⟩ := by rw [← e]
  rw [this]; simp [mev]

theorem swapped_of {S : Option Ty → Prop} {s t s' t' : St α} {a d n : Nat} {X Y : List (Option (Ty × α))}
    (h1 : Done S s s' (splice (cells s.blocks) a n Y) Y X) (h2 : Done S t t' (splice (cells t.blocks) d n X) X Y) :
    Swapped S True s t s' t' a d n X Y := ⟨h1.eff, h2.eff⟩

theorem swapSingleMulti_ok {S : Option Ty → Prop} (hS : ∀ o, S o → o ≠ none) {s t : St α} (hs : WF S s) (ht : WF S t)
    {pre post pre' mid' post' : List (Blk α)} {b c c2 : Blk α} (e : s.blocks = pre ++ b :: post)
    (e' : t.blocks = pre' ++ c :: (mid' ++ c2 :: post')) {a d m dd : Nat} (ha : a + m < b.size)
    (hd : d < c.size) (hm : d + m = c.size + (total mid' + dd)) (hdd : dd < c2.size)
    (X Y : List (Option (Ty × α))) (hX : X = ((cells s.blocks).drop (total pre + a)).take (m + 1))
    (hY : Y = ((cells t.blocks).drop (total pre' + d)).take (m + 1)) :
    Runs2 (swapSingleMulti (total pre + a) (total pre + a + m) (total pre' + d) pre.length pre'.length
        (pre'.length + (mid'.length + 1)) s t)
      (fun _ s' t' => Swapped S True s t s' t' (total pre + a) (total pre' + d) (m + 1) X Y) := by
  obtain ⟨ok, hpl, hp⟩ := ok_of_split hs e
  obtain ⟨ok', hpl', hp'⟩ := ok_of_split ht e'
  have e2 : t.blocks = (pre' ++ c :: mid') ++ c2 :: post' := by rw [e']; simp
  obtain ⟨ok2, hpl2, hp2⟩ := ok_of_split ht e2
  have hl2 : (pre' ++ c :: mid').length = pre'.length + (mid'.length + 1) := by simp
  have hg2 := getB_at e2
  rw [hl2] at hg2
  have ht2 : total (pre' ++ c :: mid') = total pre' + (c.size + total mid') := by simp
  have hlen : total pre + a + m - (total pre + a) + 1 = m + 1 := by omega
  have hoff : total pre + a - b.pos = a := by omega
  have hoff' : total pre' + d - c.pos = d := by omega
  have hoff2 : total pre' + d + m - c2.pos = dd := by omega
  have hend : total pre' + d + (m + 1) - 1 = total pre' + d + m := by omega
  have hYl : Y.length = m + 1 := by
    have h1 := (src_split ht e2).2.2.2.2.1
    rw [ht.cur, ← tile_cells_length ht.tile] at h1
    rw [hY]
    simp; omega
  unfold swapSingleMulti
  simp only [hlen, bind2_apply, onSrc_ok (getB_at e), onDst_ok (getB_at e'), onDst_ok hg2, bind2_ok, hend, hoff, hoff', hoff2]
  rcases cut_cases b a m ok ha with ⟨p, k, rfl⟩ | ⟨p, i, u, va, y, vm, vb, rfl, rfl, rfl⟩
  · have hXn : X = List.replicate (m + 1) none := by rw [hX, none_range hs e ha]
    have hd' : total pre + a + (m + 1) ≤ s.cur := by
      have := (src_split hs e).2.2.2.2.1
      simp at ha this; omega
    simp only [bind2_apply]
    have := transferMulti_ok hS ht hs e' hd hm hdd hd' Y hY
    refine Runs2.bind (Runs2.flip (P := fun r s' t' => _) this) ?_
    rintro _ s' t' ⟨h1, h2, _⟩
    simp only [m2pure_apply, runs2_ok]
    refine ⟨?_, ?_⟩
    · have := h2.eff
      rw [hXn, filterMap_rep]; exact this
    · have := h1.eff
      rw [hXn, filterMap_rep]; exact this
  · have hXs := some_range hs (n := 0) e
    rw [← hX] at hXs
    have hr := rangeOf_mid pre post _ _ _ _ _ _ _ _ _ e
    have hex := exchangeMany_ok ht e' hd hm hdd u (y :: vm) (by simp) Y hY
    simp only [bind2_apply, onSrc_ok hr, bind2_ok]
    refine Runs2.bind (Runs.dst hex _) ?_
    rintro L s1 t1 ⟨⟨h1, hL, okL, nL, cL⟩, rfl⟩
    rw [← hXs] at h1
    rw [if_neg nL]
    rcases s1 with ⟨bs, cu, fr, ev, nx⟩
    simp only at e
    subst e
    simp only at hp
    subst hp
    have fin : ∀ {A B s2}, Hole S ⟨pre ++ ⟨total pre, va.length + (vm.length + 1 + vb.length),
          some ⟨i, u, va ++ y :: (vm ++ vb)⟩⟩ :: post, cu, fr, ev, nx⟩ s2 A B (total pre + va.length) (vm.length + 1) X →
        Runs2 (onSrc (placeBlocks (total pre + va.length) A.length L) s2 t1) (fun _ s' t' => Swapped S True
          ⟨pre ++ ⟨total pre, va.length + (vm.length + 1 + vb.length),
          some ⟨i, u, va ++ y :: (vm ++ vb)⟩⟩ :: post, cu, fr, ev, nx⟩ t s' t' (total pre + va.length)
          (total pre' + d) (vm.length + 1) X Y) := by
      intro A B s2 hh
      refine Runs2.imp (Runs.src (placeBlocks_ok hh hL okL nL hYl cL) t1) ?_
      rintro _ s' t' ⟨h2, rfl⟩
      exact swapped_of h2 h1
    have hn1 : ∀ x y z : Nat, x + (y + z) - x - y = z := by omega
    rw [hn1]
    rcases va with _ | ⟨x, va⟩
    · simp only [List.length_nil, List.nil_append, Nat.zero_add, Nat.add_zero, if_true] at *
      rcases vb with _ | ⟨w, vb⟩
      · simp only [List.length_nil, List.append_nil, Nat.add_zero, if_true] at *
        have hh := hole_whole (S := S) pre post (total pre) i _ u y vm cu fr ev nx rfl hs
        simp only [← hXs] at hh
        simp only [bind2_apply]
        refine Runs2.bind (Runs.src hh t1) ?_
        rintro _ s2 t2 ⟨h2, rfl⟩
        exact fin h2
      · have hh := hole_top (S := S) pre post (total pre) i _ u y w vm vb cu fr ev nx rfl hs
        simp only [← hXs] at hh
        simp only [bind2_apply, List.length_cons, Nat.add_one_ne_zero, if_false]
        refine Runs2.bind (Runs.src hh t1) ?_
        rintro _ s2 t2 ⟨h2, rfl⟩
        exact fin h2
    · rcases vb with _ | ⟨w, vb⟩
      · simp only [List.length_nil, List.append_nil, Nat.add_zero, if_true] at *
        have hh := hole_bottom (S := S) pre post (total pre) i _ u x y va vm cu fr ev nx rfl hs
        simp only [← hXs] at hh
        rw [if_neg (by simp)]
        simp only [bind2_apply]
        refine Runs2.bind (Runs.src hh t1) ?_
        rintro _ s2 t2 ⟨h2, rfl⟩
        have hb := getB_at (s := s2) (h2.blocks.trans (List.append_assoc _ _ _))
        simp only [bind2_apply, onSrc_ok hb, bind2_ok]
        have := fin h2
        simpa using this
      · have hh := hole_mid (S := S) pre post (total pre) i _ u y (x :: va) vm (w :: vb) cu fr ev nx (by simp) (by simp)
          rfl hs
        simp only [← hXs] at hh
        rw [if_neg (by simp), if_neg (by simp)]
        simp only [bind2_apply]
        refine Runs2.bind (Runs.src hh t1) ?_
        rintro _ s2 t2 ⟨⟨i1, i2, h2⟩, rfl⟩
        have hb := getB_at (s := s2) (h2.blocks.trans (List.append_assoc _ _ _))
        simp only [bind2_apply, onSrc_ok hb, bind2_ok]
        have := fin h2
        simpa using this

/-- Where the blocks go. -/
theorem gapPosition_ok {S : Option Ty → Prop} {s0 s : St α} {A B : List (Blk α)} {a n : Nat} {X : List (Option (Ty × α))}
    (h : Hole S s0 s A B a n X) : gapPosition A.length s = .ok (a, s) := by
  have hat := h.at_
  have ht := h.tileA
  have e := h.blocks
  rcases snoc_cases A with rfl | ⟨A, x, rfl⟩
  · simp at hat
    subst hat
    rfl
  · simp only [List.append_assoc, List.singleton_append] at e
    simp at hat ht
    simp only [List.length_append, List.length_cons, List.length_nil, gapPosition, bind_apply, Nat.zero_add, getB_at e,
      obind_ok, mpure_apply]
    rw [ht.2.1, hat]

theorem range_length {S : Option Ty → Prop} {t : St α} (ht : WF S t) {pre mid post : List (Blk α)} {c c2 : Blk α}
    (e : t.blocks = pre ++ c :: (mid ++ c2 :: post)) {d m dd : Nat} (hm : d + m = c.size + (total mid + dd))
    (hdd : dd < c2.size) {Y : List (Option (Ty × α))} (hY : Y = ((cells t.blocks).drop (total pre + d)).take (m + 1)) :
    Y.length = m + 1 := by
  have e2 : t.blocks = (pre ++ c :: mid) ++ c2 :: post := by rw [e]; simp
  have h1 := (src_split ht e2).2.2.2.2.1
  rw [ht.cur, ← tile_cells_length ht.tile] at h1
  rw [hY]
  simp at h1 ⊢; omega

theorem swapMultiMulti_ok {S : Option Ty → Prop} {s t : St α} (hs : WF S s) (ht : WF S t)
    {pre mid post pre' mid' post' : List (Blk α)} {b b2 c c2 : Blk α} (e : s.blocks = pre ++ b :: (mid ++ b2 :: post))
    (e' : t.blocks = pre' ++ c :: (mid' ++ c2 :: post')) {a d m ad dd : Nat} (ha : a < b.size)
    (hm : a + m = b.size + (total mid + ad)) (had : ad < b2.size)
    (hd : d < c.size) (hm' : d + m = c.size + (total mid' + dd)) (hdd : dd < c2.size)
    (X Y : List (Option (Ty × α))) (hX : X = ((cells s.blocks).drop (total pre + a)).take (m + 1))
    (hY : Y = ((cells t.blocks).drop (total pre' + d)).take (m + 1)) :
    Runs2 (swapMultiMulti (total pre + a) (total pre + a + m) (total pre' + d) pre.length (pre.length + (mid.length + 1))
        pre'.length (pre'.length + (mid'.length + 1)) s t)
      (fun _ s' t' => Swapped S True s t s' t' (total pre + a) (total pre' + d) (m + 1) X Y) := by
  obtain ⟨ok, hpl, hp⟩ := ok_of_split hs e
  obtain ⟨ok', hpl', hp'⟩ := ok_of_split ht e'
  have e1 : s.blocks = (pre ++ b :: mid) ++ b2 :: post := by rw [e]; simp
  obtain ⟨ok1, hpl1, hp1⟩ := ok_of_split hs e1
  have hg1 := getB_at e1
  rw [show (pre ++ b :: mid).length = pre.length + (mid.length + 1) by simp] at hg1
  have ht1 : total (pre ++ b :: mid) = total pre + (b.size + total mid) := by simp
  have e2 : t.blocks = (pre' ++ c :: mid') ++ c2 :: post' := by rw [e']; simp
  obtain ⟨ok2, hpl2, hp2⟩ := ok_of_split ht e2
  have hg2 := getB_at e2
  rw [show (pre' ++ c :: mid').length = pre'.length + (mid'.length + 1) by simp] at hg2
  have ht2 : total (pre' ++ c :: mid') = total pre' + (c.size + total mid') := by simp
  have o1 : total pre + a - b.pos = a := by omega
  have o2 : total pre + a + m - b2.pos = ad := by omega
  have o3 : total pre' + d - c.pos = d := by omega
  have o4 : total pre' + d + (total pre + a + m - (total pre + a) + 1) - 1 - c2.pos = dd := by omega
  obtain ⟨A, B, L, s1, r1, h1, sL, okL, nL, cL⟩ := prepare_ok hs e ha hm had X hX
  obtain ⟨A', B', L', t1, r2, h2, sL', okL', nL', cL'⟩ := prepare_ok ht e' hd hm' hdd Y hY
  have lX := range_length hs e hm had hX
  have lY := range_length ht e' hm' hdd hY
  unfold swapMultiMulti
  simp only [bind2_apply, onSrc_ok (getB_at e), onSrc_ok hg1, onDst_ok (getB_at e'), onDst_ok hg2, bind2_ok, o1, o2, o3, o4,
    onSrc_ok r1, onDst_ok r2, onSrc_ok (gapPosition_ok h1)]
  refine Runs2.bind (Runs.src (placeBlocks_ok h1 sL' okL' nL' lY cL') t1) ?_
  rintro _ s2 t2 ⟨d1, rfl⟩
  simp only [bind2_apply, onDst_ok (gapPosition_ok h2), bind2_ok]
  refine Runs2.imp (Runs.dst (placeBlocks_ok h2 sL okL nL lX cL) s2) ?_
  rintro _ s3 t3 ⟨d2, rfl⟩
  exact swapped_of d1 d2

/-! ### The public members -/

theorem swapRange_in {S : Option Ty → Prop} (hS : ∀ o, S o → o ≠ none) {s t : St α} (hs : WF S s) (ht : WF S t)
    {a e d : Nat} (hae : a ≤ e) (he : e < s.cur) (hd : d + (e - a + 1) ≤ t.cur) :
    Runs2 (swapRange a e d s t) (fun _ s' t' =>
      Swapped S (¬ DoubleDelete (cells s.blocks) (cells t.blocks) a d (e - a + 1)) s t s' t' a d (e - a + 1)
        (((cells s.blocks).drop a).take (e - a + 1)) (((cells t.blocks).drop d).take (e - a + 1))) := by
  obtain ⟨pre, b, post, a, eb, rfl, ha, hl, hn⟩ := lookup_in hs none (pos := a) (by omega)
  obtain ⟨pre', c, post', d, ec, rfl, hdc, hl', hn'⟩ := lookup_in ht none (pos := d) (by omega)
  obtain ⟨m, rfl⟩ : ∃ m, e = total pre + a + m := ⟨e - (total pre + a), by omega⟩
  have hlen : total pre + a + m - (total pre + a) + 1 = m + 1 := by omega
  rw [hlen] at hd ⊢
  have h0 : ¬ (total pre + a > total pre + a + m) := by omega
  have hde : total pre' + d + (total pre + a + m) - (total pre + a) = total pre' + d + m := by omega
  have hdd : ¬ (total pre + a + m ≥ s.cur ∨ total pre' + d + m ≥ t.cur) := by omega
  have hnb : ∀ x : St α, nBlocks x = .ok (x.blocks.length, x) := fun x => nBlocks_ap x
  have hlb : getBlockPosition (total pre + a) 0 s = .ok (pre.length, s) := hl
  have hlb' : getBlockPosition (total pre' + d) 0 t = .ok (pre'.length, t) := hl'
  simp only [swapRange, if_neg h0, bind2_apply, onSrc_ok (curSize_ap s), onDst_ok (curSize_ap t), bind2_ok, hde, if_neg hdd,
    onSrc_ok hlb, onSrc_ok (hnb s), if_neg hn]
  rcases second hs eb ha he with ⟨hlt, hg⟩ | ⟨mid, b2, post2, ad, e2, hm, hlt, hg⟩
  · simp only [onSrc_ok hg, bind2_ok, bind2_apply, if_neg hn, onDst_ok hlb', onDst_ok (hnb t), if_neg hn']
    rcases second ht ec hdc (m := m) (by omega) with ⟨hlt', hg'⟩ | ⟨mid', c2, post2', dd, e2', hm', hlt', hg'⟩
    · simp only [onDst_ok hg', bind2_ok, bind2_apply, if_neg hn', swapImpl, if_true]
      exact swapSingle_ok hS hs ht eb ec hlt hlt' _ _ rfl rfl
    · have h6 : ¬ (pre'.length + (mid'.length + 1) = t.blocks.length) := by rw [e2']; simp
      have h7 : ¬ (pre'.length = pre'.length + (mid'.length + 1)) := by omega
      simp only [onDst_ok hg', bind2_ok, bind2_apply, if_neg h6, swapImpl, if_true, if_neg h7]
      exact Runs2.imp (swapSingleMulti_ok hS hs ht eb e2' hlt hdc hm' hlt' _ _ rfl rfl) (fun _ _ _ h => h.mono (fun _ => trivial))
  · have h6 : ¬ (pre.length + (mid.length + 1) = s.blocks.length) := by rw [e2]; simp
    have h7 : ¬ (pre.length = pre.length + (mid.length + 1)) := by omega
    simp only [onSrc_ok hg, bind2_ok, bind2_apply, if_neg h6, onDst_ok hlb', onDst_ok (hnb t), if_neg hn']
    rcases second ht ec hdc (m := m) (by omega) with ⟨hlt', hg'⟩ | ⟨mid', c2, post2', dd, e2', hm', hlt', hg'⟩
    · simp only [onDst_ok hg', bind2_ok, bind2_apply, if_neg hn', swapImpl, if_true, if_neg h7, hlen]
      have hsm : total pre' + d + (m + 1) - 1 = total pre' + d + m := by omega
      rw [hsm]
      have := swapSingleMulti_ok hS ht hs ec e2 hlt' ha hm hlt _ _ rfl rfl
      refine Runs2.flip (Runs2.imp this ?_)
      exact fun _ _ _ h => h.flip.mono (fun _ => trivial)
    · have h6' : ¬ (pre'.length + (mid'.length + 1) = t.blocks.length) := by rw [e2']; simp
      have h7' : ¬ (pre'.length = pre'.length + (mid'.length + 1)) := by omega
      simp only [onDst_ok hg', bind2_ok, bind2_apply, if_neg h6', swapImpl, if_neg h7, if_neg h7']
      exact Runs2.imp (swapMultiMulti_ok hs ht e2 e2' ha hm hlt hdc hm' hlt' _ _ rfl rfl) (fun _ _ _ h => h.mono (fun _ => trivial))

theorem swapRange_out {s t : St α} {a e d : Nat} (hb : ¬ (a ≤ e ∧ e < s.cur ∧ d + (e - a + 1) ≤ t.cur)) :
    swapRange a e d s t = .err .outOfRange s t := by
  by_cases h1 : a > e
  · simp only [swapRange, if_pos h1, throw2_apply]
  · have h2 : e ≥ s.cur ∨ d + e - a ≥ t.cur := by omega
    simp only [swapRange, if_neg h1, bind2_apply, onSrc_ok (curSize_ap s), onDst_ok (curSize_ap t), bind2_ok, if_pos h2, throw2_apply]

end Mdds.Mtv
