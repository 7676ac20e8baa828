import Verif.FST.HeapInsert2

/-!
# Insertion in memory, put together
-/
namespace Mdds.FST.Mem

variable {V : Type}

theorem wp_dropAll_fin {g : Pic V} {A M I C : List Nat} {q c : Nat} : ∀ (xs : List Var) {g' : Pic V} {h' : Heap V},
    Fin g g' h' A M I C q c → (∀ x, g'.R (.var x) ≠ none → x ∈ xs) → ∀ {Q : Unit → Heap V → Prop},
    (∀ g'' h'', Fin g g'' h'' A M I C q c → (∀ x, g''.R (.var x) = none) → g''.K = g'.K → g''.W = g'.W → Q () h'') →
    wp (dropAll xs) Q h' := by
  intro xs
  induction xs with
  | nil =>
    intro g' h' f hx Q k
    refine wp_ret (k g' h' f (fun x => ?_) rfl rfl)
    by_contra hn
    have := hx x hn
    simp at this
  | cons y ys ih =>
    intro g' h' f hx Q k
    refine wp_bind ?_
    refine wp_assign f.sat rfl (by simp) fun h1 s1 => ?_
    refine ih (f.set s1) (fun x hn => ?_) fun g'' h'' f2 n k1 k2 => k g'' h'' f2 n (by rw [k1]; rfl) (by rw [k2]; rfl)
    by_cases e : x = y
    · subst e; simp [Pic.set] at hn
    · have hn' : g'.R (.var x) ≠ none := by simpa [Pic.set, upd, e] using hn
      exact (List.mem_cons.1 (hx x hn')).resolve_left e

section
variable [DecidableEq V]

theorem insEnd_eq (A M B : List (Leaf V)) (q ep : Leaf V) (old0 : V) (ch0 : Bool) (e : Int) (val : V) :
    insEnd (A ++ q :: (M ++ ep :: B)) A.length old0 (A.length + 1 + M.length) ch0 e val =
      if ep.1 = e then
        if B ≠ [] ∧ ep.2 = val then .ok ⟨A ++ q :: B, some A.length, true⟩
        else .ok ⟨A ++ q :: ep :: B, some A.length, ch0 || decide (M ≠ [])⟩
      else if (M.getLast?.map (·.2)).getD old0 = val then
        .ok ⟨A ++ q :: ep :: B, some A.length, ch0 || decide (M ≠ [])⟩
      else .ok ⟨A ++ q :: (e, (M.getLast?.map (·.2)).getD old0) :: ep :: B, some A.length, true⟩ := by
  have e1 : (A ++ q :: (M ++ ep :: B)).drop (A.length + 1) = M ++ ep :: B := drop_snoc rfl
  have e2 : (A ++ q :: (M ++ ep :: B)).take (A.length + 1) = A ++ [q] := take_snoc rfl
  have e3 : (A ++ q :: (M ++ ep :: B)).drop (A.length + 1 + M.length) = ep :: B := by
    rw [← List.drop_drop, e1]; simp
  have e4 : (A ++ q :: (M ++ ep :: B)).drop (A.length + 1 + M.length + 1) = B := by
    rw [← List.drop_drop, e3]; simp
  have e5 : (A ++ q :: (M ++ ep :: B))[A.length + 1 + M.length]? = some ep := by
    rw [← List.head?_drop, e3]; simp
  have e6 : (M ++ ep :: B).take (A.length + 1 + M.length - (A.length + 1)) = M := by
    rw [Nat.add_sub_cancel_left]; simp
  have e7 : (A.length + 1 + M.length + 1 < (A ++ q :: (M ++ ep :: B)).length) ↔ B ≠ [] := by
    rw [← List.length_pos_iff]; simp; omega
  unfold insEnd
  rw [if_neg (by omega)]
  simp only [e1, e2, e3, e4, e5, e6, e7]
  simp

/-- Finding the end position. -/
theorem wp_endPosP {g0 g : Pic V} {h : Heap V} {o : Nat} {as : List Nat} {ls : List (Leaf V)} {X : Nat → Prop}
    (st : St g0 g h o as ls X [.startPos]) {i : Nat} (hs : g.R (.var .startPos) = as[i]?) (hi : i < as.length) (e : Int) :
    wp (endPosP o e) (fun _ h' => ∃ g1, St g0 g1 h' o as ls X [.startPos, .endPos] ∧
      g1.R (.var .startPos) = as[i]? ∧ g1.R (.var .endPos) = as[(insPos ls e i).getD (as.length - 1)]? ∧
      i ≤ (insPos ls e i).getD (as.length - 1)) h := by
  have hd := st.data
  subst hd
  have hdrop : g.R (.var .startPos) = (as.drop i).head? := by rw [hs, List.head?_drop]
  unfold endPosP
  refine wp_bind (wp_loopBound st.sat (wp_bind (wp_get st.sat (wp_bind ?_))))
  rw [hdrop]
  have hpd : Path g.N (as.drop i) none := by
    have := st.fwd
    rw [← List.take_append_drop i as, path_append] at this
    exact this.2
  refine wp_insPosP st.sat e (as.drop i) hpd (fun a ha => st.live (List.mem_of_mem_drop (List.mem_of_head? ha))) _
    (by have := st.length_le; simp; omega) (wp_bind ?_)
  rw [find_insPos]
  have hj1 : ∀ j, insPos (as.map g.D) e i = some j → i ≤ j ∧ j < as.length := by
    intro j hj
    rw [insPos, Option.map_eq_some_iff] at hj
    obtain ⟨k, hk, rfl⟩ := hj
    have := (List.findIdx?_eq_some_iff_findIdx_eq.1 hk).1
    simp at this
    omega
  refine wp_setVar st (vs' := [.startPos, .endPos]) (fun a ha => ?_) (by simp) (by simp) fun h1 st1 =>
    wp_bind (wp_get st1.sat ?_)
  · obtain ⟨j, _, hj⟩ := Option.bind_eq_some_iff.1 ha
    exact List.mem_of_getElem? hj
  · cases hjc : insPos (as.map g.D) e i with
    | none =>
      rw [hjc] at st1
      rw [if_pos (by simp [Pic.set])]
      refine wp_bind (wp_get st1.sat ?_)
      refine wp_setVar st1 (vs' := [.startPos, .endPos]) (fun a ha => ?_) (by simp) (by simp) fun h2 st2 =>
        ⟨_, st2, ?_, ?_, ?_⟩
      · rw [st1.right] at ha
        exact List.mem_of_getLast? ha
      · simp [Pic.set, upd, hs]
      · have := st.right
        rw [List.getLast?_eq_getElem?] at this
        simpa [Pic.set, upd] using this
      · simp; omega
    | some j =>
      have := hj1 j hjc
      rw [hjc] at st1
      rw [if_neg (by simp [Pic.set, this])]
      exact wp_ret ⟨_, st1, by simp [Pic.set, upd, hs], by simp [Pic.set], by simpa using this.1⟩

set_option maxHeartbeats 2000000 in
/-- `insert_to_pos` in memory. -/
theorem wp_insertToPosP {g0 g : Pic V} {h : Heap V} {o : Nat} {as : List Nat} {ls : List (Leaf V)} {X : Nat → Prop}
    (env : Env g0 o X) (st : St g0 g h o as ls X [.startPos]) {i : Nat}
    (hs : g.R (.var .startPos) = as[i]?) (hi : i < as.length) {s e : Int} {val : V} {r : InsRes V}
    (hm : insertToPos ls i s e val = .ok r) :
    wp (insertToPosP o s e val) (fun out h' => out.2 = r.changed ∧ ∃ g' as',
      St g0 g' h' o as' r.leaves X [] ∧ out.1 = r.pos.bind (as'[·]?)) h := by
  have hlen : ls.length = as.length := by rw [← st.data]; simp
  unfold insertToPos at hm
  rw [hlen] at hm
  unfold insertToPosP
  refine wp_bind (wp_mono (wp_endPosP st hs hi e) ?_)
  rintro _ h1 ⟨g1, st1, hs1, he1, hij⟩
  cases hst : insStart ls i ((insPos ls e i).getD (as.length - 1)) s val with
  | err x => rw [hst] at hm; cases hm
  | ub => rw [hst] at hm; cases hm
  | ok x =>
    obtain ⟨ls1, ns, old0, j, ch0⟩ := x
    rw [hst] at hm
    have hd := st1.data
    subst hd
    refine wp_bind (wp_mono (wp_insStartP env st1 hs1 he1 hij hst) ?_)
    rintro _ h2 ⟨rfl, g2, as2, st2, hns, hep⟩
    have hm : insEnd ls1 ns old0 j ch0 e val = .ok r := hm
    have hd := st2.data
    subst hd
    obtain ⟨hnj, ep, hepj⟩ : ns < j ∧ ∃ ep, as2[j]? = some ep := by
      unfold insEnd at hm
      by_cases hjn : j ≤ ns
      · rw [if_pos hjn] at hm; cases hm
      · refine ⟨by omega, ?_⟩
        rw [if_neg hjn] at hm
        cases hj : as2[j]? with
        | some ep => exact ⟨ep, rfl⟩
        | none => simp [hj] at hm
    have hjl := (List.getElem?_eq_some_iff.1 hepj).1
    obtain ⟨q, hq⟩ : ∃ q, as2[ns]? = some q := ⟨as2[ns], by simp [show ns < as2.length by omega]⟩
    obtain ⟨A, T, rfl, rfl⟩ := split_at hq
    have hT : T[j - (A.length + 1)]? = some ep := by
      rw [List.getElem?_append_right (by omega)] at hepj
      rw [show j - A.length = (j - (A.length + 1)) + 1 by omega, List.getElem?_cons_succ] at hepj
      exact hepj
    obtain ⟨M, B, rfl, hMl⟩ := split_at hT
    have hjM : j = A.length + 1 + M.length := by omega
    subst hjM
    rw [hq] at hns
    rw [hepj] at hep
    have hlq : Live h2 q := st2.live (by simp)
    refine wp_bind (wp_get st2.sat (wp_bind (wp_nonnull hns (wp_bind (wp_getNext st2.sat hlq (wp_bind ?_))))))
    have hNq : g2.N q = (M ++ [ep]).head? := by
      rw [st2.next_eq (A := A) rfl]; cases M <;> simp
    refine wp_setVar st2 (vs' := [.cur, .newStart, .startPos, .endPos]) (fun a ha => ?_) (by simp) (by simp) fun h3 st3 => ?_
    · rw [hNq] at ha
      have := List.mem_of_head? ha
      simp only [List.mem_append, List.mem_cons, List.not_mem_nil, or_false] at this ⊢
      tauto
    refine wp_bind (wp_loopBound st3.sat (wp_bind ?_))
    have hnd := st3.nodup
    have hne : ep ∉ q :: M ∧ (q :: M).Nodup := by
      simp only [List.nodup_append, List.nodup_cons, List.mem_append, List.mem_cons, not_or] at hnd ⊢
      obtain ⟨_, ⟨⟨a1, a2, a3⟩, a0, ⟨a4, _⟩, a5⟩, a6⟩ := hnd
      exact ⟨⟨Ne.symm a2, fun h => a5 ep h ep (.inl rfl) rfl⟩, a1, a0⟩
    have hfw := st3.fwd
    rw [path_append, path_cons, path_append] at hfw
    have hbw := st3.bwd
    have eb : (A ++ q :: (M ++ ep :: B)).reverse = (ep :: B).reverse ++ (M.reverse ++ q :: A.reverse) := by simp
    rw [eb, path_append, path_append] at hbw
    have hll := st3.length_le
    refine wp_mono (wp_insLoopP ep M _ q _ h3 old0 ch0 st3.sat ?_ ?_ ?_ hne.1 hne.2 (by simpa using hfw.2.2.1)
      (by simpa using hbw.2.1)) ?_
    · simp at hll ⊢; omega
    · simp [Pic.set, hNq]
    · simp [Pic.set, upd, hep]
    rintro ⟨old, ch⟩ h4 ⟨hr, gl, sl, lK, lW, lf, lU, lR, lN, lP, lPM, lNM, lq, lq'⟩
    simp only [Prod.mk.injEq] at hr
    obtain ⟨rfl, rfl⟩ := hr
    have hgm : ((M.map g2.D).getLast?.map (·.2)) = M.getLast?.map g2.W := by
      rw [List.getLast?_map]; cases M.getLast? <;> simp [Pic.D]
    have hmn : (M.map g2.D ≠ []) ↔ M ≠ [] := by simp
    have hBn : (B.map g2.D ≠ []) ↔ B ≠ [] := by simp
    have hm' := insEnd_eq (A.map g2.D) (M.map g2.D) (B.map g2.D) (g2.D q) (g2.D ep) old0 ch0 e val
    simp only [List.length_map, hgm, hmn, hBn] at hm'
    rw [show (A ++ q :: (M ++ ep :: B)).map g2.D =
      A.map g2.D ++ g2.D q :: (M.map g2.D ++ g2.D ep :: B.map g2.D) by simp, hm'] at hm
    clear hm'
    have lRv : ∀ x, gl.R (.var x) ≠ none → x ∈ [Var.cur, .newStart, .endPos, .startPos] := by
      intro x hx
      rw [lR] at hx
      by_cases e1 : x = .cur
      · simp [e1]
      · obtain ⟨a, ha⟩ := Option.ne_none_iff_exists'.1 hx
        have ha' : (g2.set (.root (.var .cur)) (g2.N q)).R (.var x) = some a := by simpa [upd, e1] using ha
        have := (st3.vars x a ha').2
        simp only [List.mem_cons, List.not_mem_nil, or_false] at this ⊢
        tauto
    have hRq : gl.R (.var .newStart) = some q := by rw [lR]; simp [Pic.set, upd, hns]
    refine wp_bind ?_
    have fin : ∀ (ch : Bool) (M' I C : List Nat) (c : Nat) (g' : Pic V) (h' : Heap V),
        Fin (g2.set (.root (.var .cur)) (g2.N q)) g' h' A M' I C q c →
        A ++ q :: (M ++ ep :: B) = A ++ q :: (M' ++ c :: C) →
        (∀ a, a ∉ I → g'.K a = g2.K a ∧ g'.W a = g2.W a) →
        (∀ x, g'.R (.var x) = gl.R (.var x)) → r.changed = ch → r.pos = some A.length →
        r.leaves = A.map g2.D ++ g2.D q :: (I.map g'.D ++ (c :: C).map g2.D) →
        wp (do
          let r ← get (.var .newStart)
          dropAll [.cur, .newStart, .endPos, .startPos]
          return (r, ch) : Prog V (Option Nat × Bool)) (fun out h' => out.2 = r.changed ∧ ∃ g' as',
            St g0 g' h' o as' r.leaves X [] ∧ out.1 = r.pos.bind (as'[·]?)) h' := by
      intro ch M' I C c g' h' f eas hKW hv hc hp hl
      refine wp_bind (wp_get f.sat (wp_bind ?_))
      refine wp_dropAll_fin _ f (fun x hx => lRv x (by rw [← hv]; exact hx)) fun g'' h'' f2 hn k1 k2 => wp_pure ⟨hc.symm, ?_⟩
      have st4 := st3
      rw [eas] at st4
      have st5 := f2.toSt (vs' := []) env st4 (by simp [hn])
      refine ⟨{ g'' with U := fun a => a ∈ (A ++ q :: (I ++ c :: C)) ∨ X a }, A ++ q :: (I ++ c :: C), ?_, ?_⟩
      rotate_left
      · rw [hp, hv, hRq]; simp
      · rw [hl]
        have hnd5 := st5.nodup
        have hI : ∀ a ∈ A ++ q :: c :: C, a ∉ I := by
          intro a ha hm
          simp only [List.nodup_append, List.nodup_cons, List.mem_append, List.mem_cons, not_or] at hnd5 ha
          obtain ⟨_, ⟨⟨a1, a2, a3⟩, a0, ⟨a4, _⟩, a5⟩, a6⟩ := hnd5
          rcases ha with ha | ha | ha | ha
          · exact a6 a ha a (.inr (.inl hm)) rfl
          · exact a1 (ha ▸ hm)
          · exact a5 a hm a (.inl ha) rfl
          · exact a5 a hm a (.inr ha) rfl
        have hDD : ∀ a, a ∉ I → g''.D a = g2.D a := fun a ha => by
          simp only [Pic.D, k1, k2, (hKW a ha).1, (hKW a ha).2]
        have hD : ∀ l : List Nat, (∀ a ∈ l, a ∉ I) → l.map g''.D = l.map g2.D := fun l hl =>
          List.map_congr_left fun a ha => hDD a (hl a ha)
        have e3 : I.map g''.D = I.map g'.D := by simp [Pic.D, k1, k2]
        have : (A ++ q :: (I ++ c :: C)).map g''.D = A.map g2.D ++ g2.D q :: (I.map g'.D ++ (c :: C).map g2.D) := by
          rw [List.map_append, List.map_cons, List.map_append, hD A (fun a ha => hI a (by simp [ha])),
            hD (c :: C) (fun a ha => hI a (by simp at ha ⊢; tauto)), e3, hDD q (hI q (by simp))]
        rw [← this]
        exact st5
    refine wp_insEndP st3 sl lK lW lf lU (fun r hr => ?_) lN lP lPM lNM lq lq' hRq ?_ ?_ e val _ _ ?_ ?_ ?_ ?_
    · rw [lR]
      have := hr .cur
      simp [upd, this]
    · rw [lR]; simp [Pic.set, upd, hep]
    · by_contra hn
      have := lRv _ hn
      simp at this
    · intro hM; simp [hM]
    · intro hk hv n B' hB g' h' f hKW hvr
      subst hB
      have hk' : (g2.D ep).1 = e := hk
      have hv' : (g2.D ep).2 = val := hv
      rw [if_pos hk', if_pos ⟨by simp, hv'⟩] at hm
      cases hm
      exact fin true _ _ _ _ g' h' f (by simp) (fun a _ => hKW a) hvr rfl rfl (by simp)
    · intro hc g' h' f hKW hvr
      have hm2 : r = ⟨A.map g2.D ++ g2.D q :: g2.D ep :: B.map g2.D, some A.length, ch0 || decide (M ≠ [])⟩ := by
        rcases hc with ⟨hk, hc⟩ | ⟨hk, hc⟩
        · rw [if_pos (show (g2.D ep).1 = e from hk), if_neg] at hm
          · cases hm; rfl
          · rintro ⟨h1, h2⟩
            rcases hc with h | h
            · exact h1 h
            · exact h h2
        · rw [if_neg (show ¬ (g2.D ep).1 = e from hk),
            if_pos (show (Option.map g2.W M.getLast?).getD old0 = val from hc)] at hm
          cases hm; rfl
      subst hm2
      exact fin _ _ _ _ _ g' h' f rfl (fun a _ => hKW a) hvr rfl rfl (by simp)
    · intro hk hv g' h' f hK hW hKW hvr
      rw [if_neg (show ¬ (g2.D ep).1 = e from hk),
        if_neg (show ¬ (Option.map g2.W M.getLast?).getD old0 = val from hv)] at hm
      cases hm
      exact fin true _ _ _ _ g' h' f rfl (fun a ha => hKW a (by simpa using ha)) hvr rfl rfl (by simp only [List.map_cons, List.map_nil, Pic.D]; rw [hK, hW]; rfl)

/-- `adjust_segment_range` in memory. -/
theorem wp_adjustP {g0 g : Pic V} {h : Heap V} {o : Nat} {as : List Nat} {ls : List (Leaf V)} {X : Nat → Prop}
    {vs : List Var} (st : St g0 g h o as ls X vs) {lo hi : Int} (hb : bounds ls = .ok (lo, hi)) (s e : Int)
    {Q : Option (Int × Int) → Heap V → Prop} (q : Q (adjustRange lo hi s e) h) : wp (adjustP o s e) Q h := by
  have hd := st.data
  subst hd
  unfold adjustP
  by_cases hse : e ≤ s
  · rw [if_pos hse]
    exact wp_ret (by simpa [adjustRange, hse] using q)
  · rw [if_neg hse]
    unfold bounds at hb
    cases hh : as.head? with
    | none => simp [hh] at hb
    | some a =>
      cases hl : as.getLast? with
      | none => simp [hl] at hb
      | some b =>
        simp only [List.head?_map, hh, List.getLast?_map, hl, Option.map_some, Outcome.ok.injEq, Prod.mk.injEq] at hb
        obtain ⟨rfl, rfl⟩ := hb
        refine wp_bind (wp_get st.sat (wp_bind (wp_nonnull (st.left.trans hh) (wp_bind ?_))))
        refine wp_getKey st.sat (st.live (List.mem_of_head? hh)) (wp_bind (wp_get st.sat (wp_bind ?_)))
        refine wp_nonnull (st.right.trans hl) (wp_bind (wp_getKey st.sat (st.live (List.mem_of_getLast? hl)) ?_))
        unfold adjustRange at q
        rw [if_neg hse] at q
        by_cases hc : e < g.K a ∨ g.K b ≤ s
        · rw [if_pos hc]
          rw [if_pos (by simpa [Pic.D] using hc)] at q
          exact wp_ret q
        · rw [if_neg hc]
          rw [if_neg (by simpa [Pic.D] using hc)] at q
          exact wp_ret q

theorem mem_of_bind {as : List Nat} {p : Option Nat} {a : Nat} (h : p.bind (as[·]?) = some a) : a ∈ as := by
  obtain ⟨j, _, hj⟩ := Option.bind_eq_some_iff.1 h
  exact List.mem_of_getElem? hj

/-- Inserting at the found start position. -/
theorem wp_insertAt {g0 g : Pic V} {h : Heap V} {o : Nat} {as : List Nat} {ls : List (Leaf V)} {X : Nat → Prop}
    (env : Env g0 o X) (st : St g0 g h o as ls X [.startPos]) {i : Option Nat}
    (hs : g.R (.var .startPos) = i.bind (as[·]?)) (hi : ∀ k, i = some k → k < as.length) {s e : Int} {val : V} {r : InsRes V}
    (hm0 : i = none → r = ⟨ls, none, false⟩) (hm1 : ∀ k, i = some k → insertToPos ls k s e val = .ok r) :
    wp (do
      if (← get (.var .startPos)) = none then
        drop .startPos
        return (none, false)
      else insertToPosP o s e val : Prog V (Option Nat × Bool)) (fun out h' => out.2 = r.changed ∧ ∃ g' as',
      St g0 g' h' o as' r.leaves X [] ∧ out.1 = r.pos.bind (as'[·]?)) h := by
  refine wp_bind (wp_get st.sat ?_)
  cases i with
  | none =>
    rw [if_pos (by rw [hs]; rfl)]
    cases hm0 rfl
    refine wp_bind (wp_dropVar st (vs' := []) (by simp) fun h1 st1 => wp_pure ⟨rfl, _, as, st1, rfl⟩)
  | some k =>
    have hk := hi k rfl
    have hs' : g.R (.var .startPos) = as[k]? := hs
    rw [if_neg (by rw [hs']; simp [hk])]
    exact wp_insertToPosP env st hs' hk (hm1 k rfl)

/-- `insert_segment_impl` in memory. -/
theorem wp_insertSegmentP {g0 g : Pic V} {h : Heap V} {o : Nat} {as : List Nat} {ls : List (Leaf V)} {X : Nat → Prop}
    (env : Env g0 o X) (st : St g0 g h o as ls X []) {s e : Int} {val : V} {fwd : Bool} {r : InsRes V}
    (hm : insertSegment ls s e val fwd = .ok r) :
    wp (insertSegmentP o s e val fwd) (fun out h' => out.2 = r.changed ∧ ∃ g' as',
      St g0 g' h' o as' r.leaves X [] ∧ out.1 = r.pos.bind (as'[·]?)) h := by
  unfold insertSegment at hm
  cases hb : bounds ls with
  | err x => rw [hb] at hm; cases hm
  | ub => rw [hb] at hm; cases hm
  | ok lh =>
    obtain ⟨lo, hi⟩ := lh
    rw [hb] at hm
    unfold insertSegmentP
    refine wp_bind (wp_adjustP st hb s e ?_)
    dsimp only at hm
    cases ha : adjustRange lo hi s e with
    | none =>
      rw [ha] at hm
      cases hm
      exact wp_pure ⟨rfl, g, as, st, rfl⟩
    | some se =>
      obtain ⟨s, e⟩ := se
      rw [ha] at hm
      dsimp only at hm ⊢
      have hd := st.data
      subst hd
      have hll := st.length_le
      have hne : as ≠ [] := by
        rintro rfl
        simp [bounds] at hb
      cases fwd with
      | true =>
        simp only [if_true] at hm ⊢
        refine wp_bind (wp_loopBound st.sat (wp_bind (wp_get st.sat (wp_bind ?_))))
        rw [st.left]
        refine wp_insPosP st.sat s as st.fwd (fun a ha => st.live (List.mem_of_head? ha)) _ (by omega) (wp_bind ?_)
        have hfi := find_insPos g as s 0
        rw [List.drop_zero] at hfi
        rw [hfi]
        refine wp_setVar st (vs' := [.startPos]) (fun a ha => mem_of_bind ha) (by simp) (by simp) fun h1 st1 => ?_
        refine wp_insertAt env st1 (i := insPos (as.map g.D) s 0) (by simp [Pic.set]) (fun k hk => ?_)
          (fun h0 => by rw [h0] at hm; cases hm; rfl) (fun k h0 => by rw [h0] at hm; exact hm)
        rw [insPos, Option.map_eq_some_iff] at hk
        obtain ⟨k', hk', rfl⟩ := hk
        have := (List.findIdx?_eq_some_iff_findIdx_eq.1 hk').1
        simp at this ⊢
        omega
      | false =>
        simp only [Bool.false_eq_true, if_false] at hm ⊢
        refine wp_bind (wp_loopBound st.sat (wp_bind (wp_get st.sat (wp_bind ?_))))
        rw [st.right, ← List.head?_reverse]
        refine wp_insPosRevP st.sat s as.reverse st.bwd (fun a ha => st.live (List.mem_reverse.1 (List.mem_of_head? ha))) _
          (by simp; omega) ?_
        have hpos : 0 < as.length := List.length_pos_iff.2 hne
        have hfi := find_insPosRev g s as (as.length - 1) (by omega)
        rw [Nat.sub_add_cancel hpos, List.take_length] at hfi
        rw [hfi]
        simp only [List.length_map] at hm
        cases hp : insPosRev (as.map g.D) s (as.length - 1) with
        | none =>
          rw [hp] at hm
          simp only [Option.bind_none]
          refine wp_bind (wp_get st.sat (wp_bind ?_))
          refine wp_setVar st (vs' := [.startPos]) (fun a ha => List.mem_of_head? (by rw [← st.left, ha])) (by simp) (by simp)
            fun h1 st1 => ?_
          exact wp_insertAt env st1 (i := some 0) (by simp [Pic.set, st.left, List.head?_eq_getElem?])
            (fun k hk => by cases hk; exact hpos) (by simp) (fun k hk => by cases hk; exact hm)
        | some p =>
          rw [hp] at hm
          cases hap : as[p]? with
          | none =>
            -- the search only returns positions of leaves
            exfalso
            have : ∀ n, insPosRev (as.map g.D) s n = some p → p ≤ n ∧ p < as.length := by
              intro n
              induction n with
              | zero =>
                intro h
                unfold insPosRev at h
                split at h
                · split at h
                  · cases h; exact ⟨Nat.le_refl _, hpos⟩
                  · cases h
                · cases h
              | succ n ih =>
                intro h
                unfold insPosRev at h
                split at h
                · rename_i x hx
                  split at h
                  · cases h
                    have := (List.getElem?_eq_some_iff.1 hx).1
                    simp at this
                    exact ⟨Nat.le_refl _, this⟩
                  · have := ih h; omega
                · cases h
            have := (this _ hp).2
            simp at hap
            omega
          | some a =>
            obtain ⟨A, B, rfl, rfl⟩ := split_at hap
            simp only [Option.bind_some, hap]
            refine wp_bind (wp_getNext st.sat (st.live (by simp)) (wp_bind ?_))
            rw [st.next_eq (A := A) rfl]
            refine wp_setVar st (vs' := [.startPos]) (fun b hb => by have := List.mem_of_head? hb; simp [this])
              (by simp) (by simp) fun h1 st1 => ?_
            refine wp_insertAt env st1 (i := if A.length + 1 < (A ++ a :: B).length then some (A.length + 1) else none)
              ?_ (fun k hk => ?_) (fun h0 => ?_) (fun k h0 => ?_)
            · cases B with
              | nil => simp [Pic.set]
              | cons b B => simp [Pic.set]
            · split at hk
              · cases hk; assumption
              · cases hk
            · dsimp only at hm
              rw [h0] at hm; cases hm; rfl
            · dsimp only at hm
              rw [h0] at hm; exact hm

/-- Insertion with a position hint, in memory. -/
theorem wp_insertHintP {g0 g : Pic V} {h : Heap V} {o : Nat} {as : List Nat} {ls : List (Leaf V)} {X : Nat → Prop}
    (env : Env g0 o X) (st : St g0 g h o as ls X []) {p : Option Nat} {s e : Int} {val : V} {r : InsRes V}
    (hm : insertHint ls p s e val = .ok r) :
    wp (insertHintP o (p.bind (as[·]?)) s e val) (fun out h' => out.2 = r.changed ∧ ∃ g' as',
      St g0 g' h' o as' r.leaves X [] ∧ out.1 = r.pos.bind (as'[·]?)) h := by
  cases p with
  | none => exact wp_insertSegmentP env st hm
  | some p =>
    unfold insertHint at hm
    have hd := st.data
    subst hd
    cases hap : as[p]? with
    | none => simp [hap] at hm
    | some a =>
      simp only [Option.bind_some, hap, List.getElem?_map, Option.map_some] at hm ⊢
      unfold insertHintP
      dsimp only
      have hla : Live h a := st.live (List.mem_of_getElem? hap)
      refine wp_bind (wp_getKey st.sat hla ?_)
      by_cases hk : s < g.K a
      · rw [if_pos hk]
        rw [if_pos (show s < (g.D a).1 from hk)] at hm
        exact wp_insertSegmentP env st hm
      · rw [if_neg hk]
        rw [if_neg (show ¬ s < (g.D a).1 from hk)] at hm
        cases hb : bounds (as.map g.D) with
        | err x => rw [hb] at hm; cases hm
        | ub => rw [hb] at hm; cases hm
        | ok lh =>
          obtain ⟨lo, hi⟩ := lh
          rw [hb] at hm
          refine wp_bind (wp_adjustP st hb s e ?_)
          dsimp only at hm
          cases ha : adjustRange lo hi s e with
          | none =>
            rw [ha] at hm
            cases hm
            exact wp_pure ⟨rfl, g, as, st, rfl⟩
          | some se =>
            obtain ⟨s, e⟩ := se
            rw [ha] at hm
            dsimp only at hm ⊢
            have hll := st.length_le
            refine wp_bind (wp_loopBound st.sat (wp_bind ?_))
            rw [← hap, ← List.head?_drop]
            have hpd : Path g.N (as.drop p) none := by
              have := st.fwd
              rw [← List.take_append_drop p as, path_append] at this
              exact this.2
            refine wp_insPosP st.sat s (as.drop p) hpd
              (fun a ha => st.live (List.mem_of_mem_drop (List.mem_of_head? ha))) _ (by simp; omega) (wp_bind ?_)
            rw [find_insPos]
            cases hi : insPos (as.map g.D) s p with
            | none => rw [hi] at hm; cases hm
            | some i =>
              rw [hi] at hm
              refine wp_setVar st (vs' := [.startPos]) (fun a ha => mem_of_bind ha) (by simp) (by simp) fun h1 st1 => ?_
              refine wp_insertToPosP env st1 (i := i) (by simp [Pic.set]) ?_ hm
              rw [insPos, Option.map_eq_some_iff] at hi
              obtain ⟨k', hk', rfl⟩ := hi
              have := (List.findIdx?_eq_some_iff_findIdx_eq.1 hk').1
              simp at this
              omega

end
end Mdds.FST.Mem
