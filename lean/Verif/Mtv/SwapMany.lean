import Verif.Mtv.SwapOne
/-!
Range `swap` when the range spans several blocks of a container: the range is taken out, which
leaves a hole, and blocks are put into the hole.
-/
namespace Mdds.Mtv
open Mdds

set_option linter.unusedSimpArgs false
set_option linter.unusedVariables false
set_option linter.unusedSectionVars false

variable {α : Type} [DecidableEq α]

mk_ap copyLower copyUpper

/-- The `n` cells from `a` on, `X`, were taken out of `s`; the store is `A` above the hole and `B`
below it. -/
structure Hole (S : Option Ty → Prop) (s s' : St α) (A B : List (Blk α)) (a n : Nat) (X : List (Option (Ty × α))) :
    Prop where
  blocks : s'.blocks = A ++ B
  sum : s'.cur = total A + (n + total B)
  sepA : Sep S A
  sepB : Sep S B
  tileA : Tile 0 A
  tileB : Tile (total A + n) B
  at_ : total A = a
  above : cells A = (cells s.blocks).take a
  below : cells B = (cells s.blocks).drop (a + n)
  led : Led s s' [] X

theorem copyLower_ok (SA SB : List (Blk α)) (b : Blk α) (off : Nat) (hb : b.ok) (h0 : 0 < off) (ho : off < b.size)
    (s : St α) (es : s.blocks = SA ++ b :: SB) :
    ∃ b' f s', copyLower SA.length off s = .ok (f, s') ∧ s'.blocks = SA ++ b' :: SB ∧ s'.cur = s.cur ∧
      Led s s' [] (b.cells.drop off) ∧ Piece b f 0 (b.cells.drop off) ∧ Piece b b' b.pos (b.cells.take off) := by
  rcases s with ⟨bs, c, fr, ev, nx⟩
  simp only at es
  subst es
  rcases head0_cases b off hb ho with ⟨p, m, rfl⟩ | ⟨p, i, ty, va, y, vm, rfl, rfl⟩
  · refine ⟨⟨p, off, none⟩, ⟨0, m + 1, none⟩, ?_⟩
    simp [mev]
    piece_tac
  · refine ⟨⟨p, va.length, some ⟨i, ty, va⟩⟩, ⟨0, vm.length + 1, some ⟨nx, ty, y :: vm⟩⟩, ?_⟩
    simp [mev]
    piece_tac

theorem copyUpper_ok (SA SB : List (Blk α)) (b : Blk α) (d : Nat) (hb : b.ok) (hd : d + 1 < b.size)
    (s : St α) (es : s.blocks = SA ++ b :: SB) :
    ∃ b' f s', copyUpper SA.length (d + 1) s = .ok (f, s') ∧ s'.blocks = SA ++ b' :: SB ∧ s'.cur = s.cur ∧
      Led s s' [] (b.cells.take (d + 1)) ∧ Piece b f 0 (b.cells.take (d + 1)) ∧
      Piece b b' (b.pos + (d + 1)) (b.cells.drop (d + 1)) := by
  rcases s with ⟨bs, c, fr, ev, nx⟩
  simp only at es
  subst es
  rcases tail0_cases b d hb (by omega) with ⟨p, k, rfl⟩ | ⟨p, i, ty, y, vd, vb, rfl, rfl⟩
  · refine ⟨⟨p + (d + 1), k, none⟩, ⟨0, d + 1, none⟩, ?_⟩
    simp at hd
    simp [mev]
    piece_tac
  · rcases vb with _ | ⟨w, vb⟩
    · simp at hd
    refine ⟨⟨p + (vd.length + 1), vb.length + 1, some ⟨i, ty, w :: vb⟩⟩, ⟨0, vd.length + 1, some ⟨nx, ty, y :: vd⟩⟩, ?_⟩
    simp [mev]
    piece_tac

theorem collect_ok (M : List (Blk α)) : ∀ (A R : List (Blk α)) (c fr ev nx),
    collect A.length M.length ⟨A ++ (M ++ R), c, fr, ev, nx⟩ =
      .ok (M, ⟨A ++ (M ++ R), c, fr, ev ++ (ids M).map Ev.rel, nx⟩) := by
  induction M with
  | nil => intro A R c fr ev nx; simp [collect, mev]
  | cons b M ih =>
    intro A R c fr ev nx
    rcases b with ⟨p, n, _ | d⟩
    · have := ih (A ++ [⟨p, n, none⟩]) R c fr ev nx
      simp at this
      simp [collect, mev, this]
    · have := ih (A ++ [⟨p, n, some d⟩]) R c fr (ev ++ [.rel d.id]) nx
      simp at this
      simp [collect, mev, this]

theorem layOut_ok (L : List (Blk α)) : ∀ (p : Nat) (s : St α),
    layOut p L s = .ok (retile p L, ⟨s.blocks, s.cur, s.freed, s.evs ++ (ids L).map Ev.acq, s.next⟩) := by
  induction L with
  | nil => intro p s; simp [layOut, mev, retile]
  | cons b L ih =>
    intro p s
    rcases b with ⟨q, n, _ | d⟩ <;> simp [layOut, mev, retile, ih, acquired]

@[simp] theorem retile_ids (M : List (Blk α)) : ∀ p, ids (retile p M) = ids M := by
  induction M with
  | nil => intro p; rfl
  | cons b M ih => intro p; simp [retile, ih]; rfl

@[simp] theorem nacq_acqs (l : List Nat) : nacq (l.map Ev.acq) = l.length := by
  induction l with
  | nil => rfl
  | cons a l ih => simp [ih]
@[simp] theorem nrel_acqs (l : List Nat) : nrel (l.map Ev.acq) = 0 := by
  induction l with
  | nil => rfl
  | cons a l ih => simp [ih]
@[simp] theorem acqs_acqs (i) (l : List Nat) : acqs i (l.map Ev.acq) = l.count i := by
  induction l with
  | nil => rfl
  | cons a l ih => simp [ih, List.count_cons]; omega
@[simp] theorem rels_acqs (i) (l : List Nat) : rels i (l.map Ev.acq) = 0 := by
  induction l with
  | nil => rfl
  | cons a l ih => simp [ih]

/-- `merge_with_next_block` between two separated stretches; the first `P.length` blocks are not touched. -/
theorem mergeNext_ok (S : Option Ty → Prop) (P L : List (Blk α)) (x : Blk α) (R : List (Blk α)) (s : St α)
    (e : s.blocks = P ++ (L ++ x :: R)) (ht : Tile 0 s.blocks) (hc : s.cur = total s.blocks)
    (hL : Sep S (L ++ [x])) (hR : Sep S R) :
    Runs (mergeWithNext (P.length + L.length) s) (fun _ s' => Eff Any True True s s' (cells s.blocks) [] [] ∧
      ∃ N, s'.blocks = P ++ N ∧ Sep S N ∧ N ≠ []) := by
  rcases s with ⟨bs, c, fr, ev, nx⟩
  simp only at e
  have key : ∀ Q : List (Blk α), Q = P ++ L → Runs (mergeWithNext Q.length ⟨Q ++ x :: R, c, fr, ev, nx⟩)
      (fun _ s' => Eff Any True True ⟨bs, c, fr, ev, nx⟩ s' (cells bs) [] [] ∧
      ∃ N, s'.blocks = P ++ N ∧ Sep S N ∧ N ≠ []) := by
    intro Q hQ
    subst e
    rcases x with ⟨p, n, _ | ⟨i, t, v⟩⟩ <;> rcases next0_cases R with rfl | ⟨R, p', n', rfl⟩ | ⟨R, p', n', i', t', v', rfl⟩
    all_goals simp at ht hc hR hL
    all_goals casesm* _ ∧ _
    all_goals try (by_cases htt : t = t')
    all_goals subst_vars
    all_goals simp [mev, Nat.add_assoc, *]
    all_goals
      refine ⟨?_, ?_, sep_any _, ?_, ?_, ?_, ?_⟩
      · simp (config := { failIfUnchanged := false }) only [tile_append, tile_cons, tile_nil, ok_mk_none, ok_mk_some,
         List.length_append, List.length_cons, List.length_nil, List.length_map, and_true, true_and,
         total_append, total_cons, total_nil, Nat.zero_add, List.append_assoc, List.cons_append, List.nil_append]
        and_intros <;> first
         | assumption
         | omega
         | exact tile_eq (by assumption) (by arith_tac)
      · arith_tac
      · first | rfl | (simp; done) | (simp [rep_app]; done)
      · intro hlp z hz; (try simp [List.count_append, List.count_cons, List.count_replicate, count_map_some]); (try omega)
      · (try simp); try omega
      · intro hep z; (try simp [List.count_append, List.count_cons]); try omega
  have := key _ rfl
  rw [List.append_assoc, ← e] at this
  simpa using this

theorem three {τ : Type} (U V W : List τ) {n k : Nat} (hn : U.length = n) (hk : V.length = k) :
    (U ++ (V ++ W)).take n = U ∧ ((U ++ (V ++ W)).drop n).take k = V ∧ (U ++ (V ++ W)).drop (n + k) = W := by
  subst hn hk
  rw [← List.drop_drop]
  simp only [List.take_left, List.drop_left, and_self]

/-- The first step of `prepare`. -/
theorem lower_ok {S : Option Ty → Prop} (pre R : List (Blk α)) (b : Blk α) (a : Nat) (hb : b.ok) (ha : a < b.size)
    (hp : b.pos = total pre) (hT : Tile 0 pre) (hS : SL S pre b.ty)
    (s : St α) (es : s.blocks = pre ++ b :: R) :
    ∃ A K F s', ((if a = 0 then M.pure [] else do
        let f ← copyLower pre.length a
        M.pure [f]) : M α (List (Blk α))) s = .ok (F, s') ∧
      s'.blocks = A ++ (K ++ R) ∧ s'.cur = s.cur ∧ Led s s' [] (cells F) ∧ Tile 0 A ∧ Sep S A ∧
      total A = total pre + a ∧ cells A = cells pre ++ b.cells.take a ∧ cells F ++ cells K = b.cells.drop a ∧
      (F ++ K).map Blk.ty = [b.ty] ∧ (∀ y ∈ F ++ K, y.ok) ∧ A.length = (if a = 0 then pre.length else pre.length + 1) ∧
      A.length + K.length = pre.length + 1 := by
  have hcl := cells_length_of_ok hb
  by_cases h0 : a = 0
  · subst h0
    refine ⟨pre, [b], [], s, rfl, by simp [es], rfl, ⟨fun z hz => by simp, by omega, fun i => by omega⟩, hT, hS.1, ?_⟩
    simp [hb]
  · obtain ⟨b', f, s', h1, h2, h3, h4, h5, h6⟩ := copyLower_ok pre R b a hb (by omega) ha s es
    refine ⟨pre ++ [b'], [], [f], s', ?_, by simp [h2], h3, by simpa [h5.cells] using h4, ?_, ?_, ?_⟩
    · rw [if_neg h0]
      simp [bind_apply, h1, mev]
    · simp [hT, h6.pos, h6.ok, hp]
    · simp [h6.ty, hS]
    · simp [h6.size, h6.cells, h5.cells, h5.ty, h5.ok, h0]
      omega

/-- The second step of `prepare`. -/
theorem upper_ok {S : Option Ty → Prop} (A R : List (Blk α)) (b : Blk α) (d p : Nat) (hb : b.ok) (hd : d < b.size)
    (hp : b.pos = p) (hT : Tile (p + b.size) R) (hS : SR S b.ty R)
    (s : St α) (es : s.blocks = A ++ b :: R) :
    ∃ K F B s', ((if d = b.size - 1 then M.pure [] else do
        let f ← copyUpper A.length (d + 1)
        M.pure [f]) : M α (List (Blk α))) s = .ok (F, s') ∧
      s'.blocks = A ++ (K ++ B) ∧ s'.cur = s.cur ∧ Led s s' [] (cells F) ∧ Tile (p + (d + 1)) B ∧ Sep S B ∧
      total B + (d + 1) = total R + b.size ∧ cells B = b.cells.drop (d + 1) ++ cells R ∧
      cells K ++ cells F = b.cells.take (d + 1) ∧
      (K ++ F).map Blk.ty = [b.ty] ∧ (∀ y ∈ K ++ F, y.ok) ∧ K.length = (if d = b.size - 1 then 1 else 0) := by
  have hcl := cells_length_of_ok hb
  by_cases h0 : d = b.size - 1
  · refine ⟨[b], [], R, s, by rw [if_pos h0]; rfl, by simp [es], rfl,
      ⟨fun z hz => by simp, by omega, fun i => by omega⟩, tile_eq hT (by omega), ?_, by omega, ?_⟩
    · have := hS
      simp [SR, Sep] at this ⊢
      exact this.tail
    · have h1 : d + 1 = b.size := by omega
      rw [h1]
      simp [hb, h0, List.drop_of_length_le, List.take_of_length_le, hcl]
  · obtain ⟨b', f, s', h1, h2, h3, h4, h5, h6⟩ := copyUpper_ok A R b d hb (by omega) s es
    refine ⟨[], [f], b' :: R, s', ?_, by simp [h2], h3, by simpa [h5.cells] using h4, ?_, ?_, ?_, ?_⟩
    · rw [if_neg h0]
      simp [bind_apply, h1, mev]
    · simp [h6.pos, h6.ok, hp, h6.size, hcl]
      exact tile_eq hT (by omega)
    · simpa [Sep, SR, h6.ty] using hS
    · simp [h6.size]; omega
    · simp [h6.cells, h5.cells, h5.ty, h5.ok, h0]

/-- `prepare_blocks_to_transfer`: the range goes out, as separated blocks, and leaves a hole. -/
theorem prepare_ok {S : Option Ty → Prop} {s : St α} (hs : WF S s)
    {pre mid post : List (Blk α)} {b b2 : Blk α} (e : s.blocks = pre ++ b :: (mid ++ b2 :: post)) {a m dd : Nat}
    (ha : a < b.size) (hm : a + m = b.size + (total mid + dd)) (hdd : dd < b2.size)
    (X : List (Option (Ty × α))) (hX : X = ((cells s.blocks).drop (total pre + a)).take (m + 1)) :
    ∃ A B L s', prepare pre.length a (pre.length + (mid.length + 1)) dd s = .ok ((A.length, L), s') ∧
      Hole S s s' A B (total pre + a) (m + 1) X ∧ Sep S L ∧ (∀ y ∈ L, y.ok) ∧ L ≠ [] ∧ cells L = X := by
  obtain ⟨ok, hpl, hp⟩ := ok_of_split hs e
  obtain ⟨q1, _, q3, q4, q5, q6, q7⟩ := src_split hs e
  simp only [tile_append, tile_cons, SR_append, total_append, total_cons] at q4 q5 q7
  obtain ⟨q4, p2, ok2, q8⟩ := q4
  obtain ⟨q7, q9⟩ := q7
  have okm : ∀ y ∈ mid, y.ok := by
    intro y hy
    obtain ⟨u, v, rfl⟩ := List.append_of_mem hy
    simp at q4
    exact q4.2.2.1
  have hcm := tile_cells_length q4
  have hcl := cells_length_of_ok ok
  have hcl2 := cells_length_of_ok ok2
  obtain ⟨A, M1, F, s1, r1, e1, c1, l1, t1, sp1, to1, ce1, ce1', ty1, ok1, len1, len1'⟩ :=
    lower_ok pre (mid ++ b2 :: post) b a ok ha hp q3 q6 s e
  have e1' : s1.blocks = (A ++ (M1 ++ mid)) ++ b2 :: post := by rw [e1]; simp
  obtain ⟨M2, G, B, s2, r2, e2, c2, l2, t2, sp2, to2, ce2, ce2', ty2, ok2', len2⟩ :=
    upper_ok (A ++ (M1 ++ mid)) post b2 dd _ ok2 hdd p2 q8 q9 s1 e1'
  have hlen : (A ++ (M1 ++ mid)).length = pre.length + (mid.length + 1) := by simp; omega
  have hg : getB (pre.length + (mid.length + 1)) s1 = .ok (b2, s1) := by
    rw [← hlen]
    have : s1 = ⟨(A ++ (M1 ++ mid)) ++ b2 :: post, s1.cur, s1.freed, s1.evs, s1.next⟩ := by rw [← e1']
    rw [this]; simp only [getB_ap]; simp
  rw [hlen] at r2
  have hbeg : (if a = 0 then pre.length else pre.length + 1) = A.length := len1.symm
  have hend : (if dd = b2.size - 1 then pre.length + (mid.length + 1) + 1 else pre.length + (mid.length + 1)) - A.length
      = (M1 ++ (mid ++ M2)).length := by
    simp [len2]
    split <;> omega
  have hs2 : s2 = ⟨A ++ ((M1 ++ (mid ++ M2)) ++ B), s2.cur, s2.freed, s2.evs, s2.next⟩ := by
    have : A ++ ((M1 ++ (mid ++ M2)) ++ B) = s2.blocks := by rw [e2]; simp
    rw [this]
  have r3 := collect_ok (M1 ++ (mid ++ M2)) A B s2.cur s2.freed s2.evs s2.next
  rw [← hs2] at r3
  have r4 : delB A.length (M1 ++ (mid ++ M2)).length
      ⟨A ++ ((M1 ++ (mid ++ M2)) ++ B), s2.cur, s2.freed, s2.evs ++ (ids (M1 ++ (mid ++ M2))).map Ev.rel, s2.next⟩
      = .ok ((), ⟨A ++ B, s2.cur, s2.freed, s2.evs ++ (ids (M1 ++ (mid ++ M2))).map Ev.rel, s2.next⟩) := by
    generalize M1 ++ (mid ++ M2) = M
    simp [delB_ap]
  have hall : cells s.blocks = cells A ++ (cells (F ++ ((M1 ++ (mid ++ M2)) ++ G)) ++ cells B) := by
    rw [e, ce1, ce2]
    simp only [cells_append, cells_cons]
    calc _ = cells pre ++ (b.cells.take a ++ b.cells.drop a ++ (cells mid ++
            (b2.cells.take (dd + 1) ++ b2.cells.drop (dd + 1) ++ cells post))) := by
          rw [List.take_append_drop, List.take_append_drop]
      _ = _ := by rw [← ce1', ← ce2']; simp only [List.append_assoc]
  have hAl : (cells A).length = total pre + a := by rw [tile_cells_length t1, to1]
  have hLl : (cells (F ++ ((M1 ++ (mid ++ M2)) ++ G))).length = m + 1 := by
    have h1 := congrArg List.length hall
    rw [List.length_append, List.length_append, tile_cells_length t2, hAl, e] at h1
    simp [hcl, hcl2, hcm, hpl, tile_cells_length q8] at h1 ⊢
    omega
  obtain ⟨h3a, h3b, h3c⟩ := three _ _ _ hAl hLl
  rw [← hall] at h3a h3b h3c
  have hL : cells (F ++ ((M1 ++ (mid ++ M2)) ++ G)) = X := by rw [hX, h3b]
  refine ⟨A, B, F ++ ((M1 ++ (mid ++ M2)) ++ G),
    ⟨A ++ B, s2.cur, s2.freed, s2.evs ++ (ids (M1 ++ (mid ++ M2))).map Ev.rel, s2.next⟩, ?_, ⟨rfl, ?_, sp1, sp2, t1, ?_, to1, ?_, ?_, ?_⟩, ?_, ?_, ?_, hL⟩
  · unfold prepare
    simp only [bind_apply, r1, hg, r2, hbeg, hend, r3, r4, mpure_apply, obind_ok]
  · simp [c2, c1, q5]; omega
  · exact tile_eq t2 (by omega)
  · exact h3a.symm
  · exact h3c.symm
  · have l3 : Led s2 ⟨A ++ B, s2.cur, s2.freed, s2.evs ++ (ids (M1 ++ (mid ++ M2))).map Ev.rel, s2.next⟩ []
        (cells (M1 ++ (mid ++ M2))) := by
      rw [hs2]
      generalize M1 ++ (mid ++ M2) = M
      refine ⟨fun z hz => ?_, ?_, fun i => ?_⟩
      · simp [List.count_append]; omega
      · simp; omega
      · simp; omega
    have l4 := (l1.trans l2).trans l3
    refine ⟨fun z hz => ?_, l4.evn, l4.ev⟩
    have := l4.led z hz
    rw [← hL]
    simp [List.count_append] at this ⊢
    omega
  · have : (F ++ ((M1 ++ (mid ++ M2)) ++ G)).map Blk.ty = b.ty :: (mid.map Blk.ty ++ [b2.ty]) := by
      simp only [List.map_append] at ty1 ty2 ⊢
      rw [← ty2, ← List.singleton_append, ← ty1]; simp
    rw [Sep, this]
    exact q7
  · intro y hy
    simp at hy
    rcases hy with h | h | h | h | h
    · exact ok1 y (by simp [h])
    · exact ok1 y (by simp [h])
    · exact okm y h
    · exact ok2' y (by simp [h])
    · exact ok2' y (by simp [h])
  · intro hn
    rw [hn] at hLl
    simp at hLl

theorem insB_ok (A B L : List (Blk α)) (c fr ev nx) :
    insB A.length L ⟨A ++ B, c, fr, ev, nx⟩ = .ok ((), ⟨A ++ (L ++ B), c, fr, ev, nx⟩) := by
  simp [insB_ap]

theorem tile_ok {bs : List (Blk α)} : ∀ {p : Nat}, Tile p bs → ∀ y ∈ bs, y.ok := by
  induction bs with
  | nil => intro p _ y hy; simp at hy
  | cons b bs ih =>
    intro p h y hy
    rcases List.mem_cons.mp hy with rfl | hy
    · exact h.2.1
    · exact ih h.2.2 y hy

theorem cells_len_all : ∀ {bs : List (Blk α)}, (∀ y ∈ bs, y.ok) → (cells bs).length = total bs
  | [], _ => rfl
  | b :: bs, h => by
    have h1 : ∀ y ∈ bs, y.ok := fun y hy => h y (by simp [hy])
    simp [cells_length_of_ok (h b (by simp)), cells_len_all h1]

/-- The blocks put into a hole, with the boundaries merged. -/
theorem placeBlocks_ok {S : Option Ty → Prop} {s0 s : St α} {A B L : List (Blk α)} {a n : Nat}
    {X Y : List (Option (Ty × α))} (h : Hole S s0 s A B a n X) (hL : Sep S L) (ok : ∀ y ∈ L, y.ok) (hne : L ≠ [])
    (hn : Y.length = n) (hY : cells L = Y) :
    Runs (placeBlocks a A.length L s) (fun _ s' => Done S s0 s' (splice (cells s0.blocks) a n Y) Y X) := by
  obtain ⟨e, hsum, sA, sB, tA, tB, hat, hab, hbe, hled⟩ := h
  have hLt : total L = n := by rw [← cells_len_all ok, hY, hn]
  rcases s with ⟨bs, c, fr, ev, nx⟩
  simp only at e hsum
  subst e
  unfold placeBlocks insertBlocksAt
  simp only [bind_apply, layOut_ok, obind_ok, insB_ok]
  have hRt := retile_tile L (total A) ok
  have hRc := retile_cells L a
  have hRi := retile_ids L a
  have hRl := retile_length L a
  have hRS : Sep S (retile a L) := by rw [Sep, retile_ty]; exact hL
  have hRT := retile_total L a
  rw [hat] at hRt
  have hRn : retile a L ≠ [] := by
    intro hc
    rw [hc] at hRl
    exact hne (List.length_eq_zero_iff.mp hRl.symm)
  generalize retile a L = L' at *
  have hs1 : Led ⟨A ++ B, c, fr, ev, nx⟩ ⟨A ++ (L' ++ B), c, fr, ev ++ (ids L).map Ev.acq, nx⟩ Y [] := by
    refine ⟨fun z hz => ?_, ?_, fun i => ?_⟩
    · simp [List.count_append, hRc, hY]; omega
    · simp [hRi]; omega
    · simp [hRi]; omega
  rcases snoc_cases L' with rfl | ⟨L1, x, rfl⟩
  · exact absurd rfl hRn
  have hidx : A.length + L.length - 1 = A.length + L1.length := by rw [← hRl]; simp
  rw [hidx]
  have ht1 : Tile 0 (A ++ (L1 ++ [x] ++ B)) := by
    rw [tile_append, tile_append]
    refine ⟨tA, tile_eq hRt (by omega), tile_eq tB (by rw [hRT]; omega)⟩
  refine Runs.bind (mergeNext_ok S A L1 x B _ (by simp) ht1 (by simp [hsum] at hRT ⊢; try omega) hRS sB) ?_
  rintro r1 s1 ⟨f1, N, hN, sN, nN⟩
  have l1 := (hled.trans hs1).trans (Led.of_eff f1)
  have hce : cells A ++ (cells (L1 ++ [x]) ++ cells B) = splice (cells s0.blocks) a n Y := by
    unfold splice
    rw [hab, hbe, hRc, hY]
  rcases snoc_cases A with rfl | ⟨A1, y, rfl⟩
  · rw [if_neg (by simp)]
    refine ⟨(), s1, rfl, f1.tile, f1.cur, by rw [hN]; simpa using sN, ?_, by simpa using l1⟩
    rw [f1.cells, ← hce]
    simp
  · rw [if_pos (by simp)]
    have hi : (A1 ++ [y]).length - 1 = ([] : List (Blk α)).length + A1.length := by simp
    rw [hi, bind_apply]
    refine Runs.bind (mergeNext_ok S [] A1 y N s1 (by rw [hN]; simp) f1.tile f1.cur sA sN) ?_
    rintro r2 s2 ⟨f2, N2, hN2, sN2, nN2⟩
    refine ⟨(), s2, rfl, f2.tile, f2.cur, by rw [hN2]; simpa using sN2, ?_, by simpa using l1.trans (Led.of_eff f2)⟩
    rw [f2.cells, f1.cells, ← hce]
    simp only [cells_append]

/-- `exchange_elements` over several blocks. -/
theorem exchangeMany_ok {S : Option Ty → Prop} {s : St α} (hs : WF S s)
    {pre mid post : List (Blk α)} {b b2 : Blk α} (e : s.blocks = pre ++ b :: (mid ++ b2 :: post)) {a m dd : Nat}
    (ha : a < b.size) (hm : a + m = b.size + (total mid + dd)) (hdd : dd < b2.size) (ty : Ty) (vs : List α)
    (hv : vs.length = m + 1)
    (X : List (Option (Ty × α))) (hX : X = ((cells s.blocks).drop (total pre + a)).take (m + 1)) :
    Runs (exchangeMany ty vs pre.length a (pre.length + (mid.length + 1)) dd (m + 1) s) (fun L s' =>
      Done S s s' (splice (cells s.blocks) (total pre + a) (m + 1) (vs.map fun v => some (ty, v)))
        (vs.map fun v => some (ty, v)) X ∧
      Sep S L ∧ (∀ y ∈ L, y.ok) ∧ L ≠ [] ∧ cells L = X) := by
  obtain ⟨A, B, L, s1, r1, ⟨e1, hsum, sA, sB, tA, tB, hat, hab, hbe, hled⟩, sL, okL, nL, cL⟩ :=
    prepare_ok hs e ha hm hdd X hX
  rcases s1 with ⟨bs, c, fr, ev, nx⟩
  simp only at e1 hsum
  subst e1
  unfold exchangeMany
  simp only [bind_apply, r1, obind_ok, insB_ok]
  have hcp : ∀ k : M α (List (Blk α)), (if A.length > 0 then (do calcPos A.length; k) else (do M.pure (); k))
      (⟨A ++ ([(⟨0, m + 1, none⟩ : Blk α)] ++ B), c, fr, ev, nx⟩ : St α) =
      k ⟨A ++ ⟨total A, m + 1, none⟩ :: B, c, fr, ev, nx⟩ := by
    intro k
    rcases A with _ | ⟨a0, A⟩
    · rfl
    · rw [if_pos (by simp), bind_apply]
      have := calcPos_ok (a0 :: A) B ⟨0, m + 1, none⟩ tA c fr ev nx
      simp only [List.singleton_append, this, obind_ok]
  rw [hcp, bind_apply, newBlockAt_ok, obind_ok, bind_apply]
  have ht2 : Tile 0 (A ++ ⟨total A, m + 1, some ⟨nx, ty, vs⟩⟩ :: B) := by
    simp only [tile_append, tile_cons]
    exact ⟨tA, by simp, by simp [hv], tile_eq tB (by simp)⟩
  have hm := merge_ok S [] A ⟨total A, m + 1, some ⟨nx, ty, vs⟩⟩ B
    ⟨A ++ ⟨total A, m + 1, some ⟨nx, ty, vs⟩⟩ :: B, c, fr, ev ++ [.acq nx], nx + 1⟩ (.inl rfl) rfl ht2
    (by simp [hsum]) sA sB
  simp only [List.length_nil, Nat.zero_add] at hm
  refine Runs.bind hm ?_
  intro r2 s2 m2
  obtain ⟨N, hN, sN, _⟩ := m2.keep
  refine ⟨L, s2, rfl, ⟨m2.eff.tile, m2.eff.cur, by rw [hN]; simpa using sN, ?_, ?_⟩, sL, okL, nL, cL⟩
  · rw [m2.eff.cells]
    unfold splice
    rw [← hab, ← hbe]
    simp [Blk.cells]
  · have l2 : Led ⟨A ++ B, c, fr, ev, nx⟩
        ⟨A ++ ⟨total A, m + 1, some ⟨nx, ty, vs⟩⟩ :: B, c, fr, ev ++ [.acq nx], nx + 1⟩
        (vs.map fun v => some (ty, v)) [] := by
      refine ⟨fun z hz => ?_, ?_, fun i => ?_⟩
      · simp [List.count_append, Blk.cells]; omega
      · simp [Blk.ids]; omega
      · simp [Blk.ids, List.count_cons]; omega
    simpa using (hled.trans l2).trans (Led.of_eff m2.eff)

end Mdds.Mtv
