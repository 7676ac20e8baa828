import Verif.FST.HeapInsert3

/-!
# Shifting in memory does what shifting the list of leaves does
-/
namespace Mdds.FST.Mem

variable {V : Type}

section
variable {g0 g : Pic V} {h : Heap V} {o : Nat} {as : List Nat} {ls : List (Leaf V)} {X : Nat → Prop} {vs : List Var}

/-- Overwriting the key of a leaf. -/
theorem St.setKey (st : St g0 g h o as ls X vs) {A B : List Nat} {a : Nat} (e : as = A ++ a :: B) {k : Int} {h' : Heap V}
    (s : Sat { g with K := upd g.K a k } h') :
    St g0 { g with K := upd g.K a k } h' o as (A.map g.D ++ (k, g.W a) :: B.map g.D) X vs := by
  have hn := st.nodup
  rw [e, List.nodup_append] at hn
  obtain ⟨n1, n2, n3⟩ := hn
  rw [List.nodup_cons] at n2
  refine ⟨s, st.left, st.right, st.fwd, st.bwd, ?_, st.nodup, st.disj, st.vars, st.roots, fun b hb => ?_,
    st.mono, st.U⟩
  · rw [e, List.map_append, List.map_cons]
    congr 1
    · exact map_D_congr (fun b hb => upd_ne _ _ (n3 b hb a (by simp))) (fun _ _ => rfl)
    · congr 1
      · simp [Pic.D]
      · exact map_D_congr (fun b hb => upd_ne _ _ (fun e => n2.1 (e ▸ hb))) (fun _ _ => rfl)
  · have : b ≠ a := fun e' => st.disj a (by rw [e]; simp) (e' ▸ hb)
    have hf := st.frame b hb
    exact ⟨hf.1, hf.2.1, by simp [upd_ne _ _ this, hf.2.2.1], hf.2.2.2⟩

theorem wp_setKeySt (st : St g0 g h o as ls X vs) {A B : List Nat} {a : Nat} (e : as = A ++ a :: B) {k : Int}
    {Q : Unit → Heap V → Prop}
    (q : ∀ h', St g0 { g with K := upd g.K a k } h' o as (A.map g.D ++ (k, g.W a) :: B.map g.D) X vs → Q () h') :
    wp (setKey a k) Q h :=
  wp_setKey st.sat (st.live (by rw [e]; simp)) fun h' s => q h' (st.setKey e s)

end

section
variable [DecidableEq V]

theorem appendNew_eq (A : List (Leaf V)) (p r : Leaf V) (init : V) (k : Int) :
    appendNewSegment (A ++ [p, r]) init k =
      if p.1 = k then .ok (A ++ [(p.1, init), r], false)
      else if p.2 = init then .ok (A ++ [p, r], false)
      else .ok (A ++ [p, (k, init), r], true) := by
  have e0 : A ++ [p, r] = (A ++ [p]) ++ [r] := by simp
  have e1 : (A ++ [p, r])[A.length]? = some p := by simp
  have e2 : (A ++ [p, r])[A.length + 1]? = some r := by
    rw [List.getElem?_append_right (by omega)]; simp
  have e3 : (A ++ [p, r]).take A.length = A := by simp
  have e4 : (A ++ [p, r]).take (A.length + 1) = A ++ [p] := take_snoc rfl
  unfold appendNewSegment
  have hl : (A ++ [p, r]).length = A.length + 2 := by simp
  simp only [hl]
  rw [if_neg (by omega), show A.length + 2 - 2 = A.length by omega, show A.length + 2 - 1 = A.length + 1 by omega, e1, e2]
  simp only [e3, e4]
  simp

/-- `append_new_segment` in memory. -/
theorem wp_appendNewP {g0 g : Pic V} {h : Heap V} {o : Nat} {as : List Nat} {ls : List (Leaf V)} {X : Nat → Prop}
    {vs : List Var} (env : Env g0 o X) (st : St g0 g h o as ls X vs) {init : V} {k : Int}
    {ls' : List (Leaf V)} {b : Bool} (hm : appendNewSegment ls init k = .ok (ls', b)) :
    wp (appendNewP o init k) (fun out h' => out = b ∧ ∃ g' as', St g0 g' h' o as' ls' X vs ∧ (b = false → as' = as)) h := by
  have hd := st.data
  subst hd
  obtain ⟨A, p, r, rfl⟩ : ∃ A p r, as = A ++ [p, r] := by
    rcases nil_or_snoc as with rfl | ⟨T, r, rfl⟩
    · simp [appendNewSegment] at hm
    · rcases nil_or_snoc T with rfl | ⟨A, p, rfl⟩
      · simp [appendNewSegment] at hm
      · exact ⟨A, p, r, by simp⟩
  rw [show (A ++ [p, r]).map g.D = A.map g.D ++ [g.D p, g.D r] by simp, appendNew_eq] at hm
  have hlr : Live h r := st.live (by simp)
  have hlp : Live h p := st.live (by simp)
  have hPr : g.P r = some p := by
    rw [st.prev_eq (A := A ++ [p]) (B := []) (by simp)]; simp
  have hNp : g.N p = some r := by
    rw [st.next_eq (A := A) rfl]; simp
  have hRr : g.R (.right o) = some r := by rw [st.right]; simp
  unfold appendNewP
  refine wp_bind (wp_get st.sat (wp_bind (wp_nonnull hRr (wp_bind ?_))))
  refine wp_getPrev st.sat hlr (wp_bind (wp_nonnull hPr (wp_bind (wp_getKey st.sat hlp ?_))))
  by_cases hk : g.K p = k
  · rw [if_pos hk]
    rw [if_pos (show (g.D p).1 = k from hk)] at hm
    cases hm
    refine wp_bind (wp_setValSt st (A := A) rfl fun h1 st1 => wp_pure ⟨rfl, _, _, st1, fun _ => rfl⟩)
  · rw [if_neg hk]
    rw [if_neg (show ¬ (g.D p).1 = k from hk)] at hm
    refine wp_bind (wp_getVal st.sat hlp ?_)
    by_cases hv : g.W p = init
    · rw [if_pos hv]
      rw [if_pos (show (g.D p).2 = init from hv)] at hm
      cases hm
      exact wp_pure ⟨rfl, g, _, by simpa using st, fun _ => rfl⟩
    · rw [if_neg hv]
      rw [if_neg (show ¬ (g.D p).2 = init from hv)] at hm
      cases hm
      have hfr := st.fr_notin
      have hfX := st.fr_notX env
      have hf : g.fr ∉ A ∧ g.fr ≠ p ∧ g.fr ≠ r := by simpa using hfr
      have hnd := st.nodup
      have hpr : p ≠ r := by
        simp only [List.nodup_append, List.nodup_cons, List.mem_cons] at hnd
        exact fun h => hnd.2.1.1 (.inl h)
      refine wp_bind (wp_alloc st.sat fun h1 s1 => ?_)
      have hlr1 : Live h1 r := s1.live_root (r := .right o) (by
        show upd g.R (.var .newNode) (some g.fr) (.right o) = some r
        simp [upd, st.right])
      have hPr1 : (g.new (.var .newNode) k init).P r = some p := by simp [Pic.new, upd, Ne.symm hf.2.2, hPr]
      refine wp_bind (wp_getPrev s1 hlr1 (wp_bind ?_))
      rw [hPr1]
      have hla1 : Live h1 g.fr := s1.live_root (r := .var .newNode) (by simp [Pic.new])
      refine wp_setPrev s1 hla1 (fun b hb => by cases hb; exact s1.live_prev hlr1 hPr1) fun h2 s2 => wp_bind ?_
      have hla2 : Live h2 g.fr := s2.live_root (r := .var .newNode) (by simp [Pic.new])
      have hlr2 : Live h2 r := s2.live_root (r := .right o) (by
        show upd g.R (.var .newNode) (some g.fr) (.right o) = some r
        simp [upd, st.right])
      refine wp_setNext s2 hla2 (fun b hb => by cases hb; exact hlr2) fun h3 s3 => ?_
      have hla3 : Live h3 g.fr := s3.live_root (r := .var .newNode) (by simp [Pic.new])
      have hlr3 : Live h3 r := s3.live_root (r := .right o) (by
        show upd g.R (.var .newNode) (some g.fr) (.right o) = some r
        simp [upd, st.right])
      have hPr3 : upd (g.new (.var .newNode) k init).P g.fr (some p) r = some p := by
        rw [upd_ne _ _ (Ne.symm hf.2.2), hPr1]
      refine wp_bind (wp_getPrev s3 hlr3 (wp_bind (wp_nonnull hPr3 (wp_bind ?_))))
      refine wp_setNext s3 (s3.live_prev hlr3 hPr3) (fun b hb => by cases hb; exact hla3) fun h4 s4 => wp_bind ?_
      have hlr4 : Live h4 r := s4.live_root (r := .right o) (by
        show upd g.R (.var .newNode) (some g.fr) (.right o) = some r
        simp [upd, st.right])
      refine wp_moveTo s4 (l := .prev r) hlr4 (by simp) fun h5 s5 => wp_pure ⟨rfl, ?_⟩
      simp only [Pic.set, Pic.new, upd_same] at s5
      have stR := St.insert (A := A) (l := p) (r := r) (B := []) (vs' := vs) env st s5
        (ls' := A.map g.D ++ [g.D p, (k, init), g.D r]) (fun a => ?_) (fun a => ?_) (fun a ha => ?_) (fun a ha => ?_) ?_
        (fun x a e => ?_) (fun q hq => ?_) (fun a ha => ha) (by simp)
      · exact ⟨_, _, stR, by simp⟩
      · by_cases e1 : a = g.fr
        · subst e1; simp [upd, hf.2.1]
        · by_cases e2 : a = p
          · subst e2; simp [upd, e1]
          · simp [upd, e1, e2]
      · by_cases e1 : a = g.fr
        · subst e1; simp [upd, hf.2.2]
        · by_cases e2 : a = r
          · subst e2; simp [upd, e1]
          · simp [upd, e1, e2]
      · have : a ≠ g.fr := fun e => hfX (e ▸ ha)
        simp [upd, this]
      · have : a ≠ g.fr := fun e => hfX (e ▸ ha)
        simp [upd, this]
      · have hD : ∀ l : List Nat, g.fr ∉ l → l.map (Pic.D { g with K := upd g.K g.fr k, W := upd g.W g.fr init }) = l.map g.D := by
          intro l hl
          refine map_D_congr (fun a ha => upd_ne _ _ fun e => hl (e ▸ ha)) (fun a ha => upd_ne _ _ fun e => hl (e ▸ ha))
        have h1 := hD A hf.1
        have h2 := hD [p] (by simp [hf.2.1])
        have h3 := hD [r] (by simp [hf.2.2])
        simp only [List.map_cons, List.map_nil, List.cons.injEq, and_true] at h2 h3
        rw [List.map_append]
        congr 1
        simp only [List.map_cons, List.map_nil, List.cons.injEq, and_true]
        exact ⟨h2, by simp [Pic.D], h3⟩
      · by_cases e1 : x = .newNode
        · subst e1; simp at e
        · have := st.vars x a (by simpa [upd, e1] using e)
          refine ⟨?_, this.2⟩
          rcases this.1 with h | h
          · left; simp at h ⊢; tauto
          · exact .inr h
      · simp [upd, hq .newNode]

omit [DecidableEq V] in
theorem shiftKeysLeft_eq (A B : List (Leaf V)) (r : Leaf V) (d : Int) :
    shiftKeysLeft (A ++ (B ++ [r])) A.length d = A ++ (B.map (fun n => (n.1 - d, n.2)) ++ [r]) := by
  unfold shiftKeysLeft
  simp

/-- `shift_leaf_key_left` in memory: the leaves from `B` on. -/
theorem wp_shiftKeysLeftP (d : Int) (r : Nat) : ∀ (B : List Nat) (A : List Nat) (g0 g : Pic V) (h : Heap V) (o : Nat) (ls : List (Leaf V))
    (X : Nat → Prop) (vs : List Var) (fuel : Nat), St g0 g h o (A ++ (B ++ [r])) ls X vs → B.length < fuel →
    wp (shiftKeysLeftP (some r) d fuel (B ++ [r]).head?) (fun _ h' => ∃ g', St g0 g' h' o (A ++ (B ++ [r]))
      (A.map g.D ++ (B.map (fun a => (g.K a - d, g.W a)) ++ [g.D r])) X vs ∧ g'.R = g.R) h := by
  intro B
  induction B with
  | nil =>
    intro A g0 g h o ls X vs fuel st hf
    cases fuel with
    | zero => simp at hf
    | succ f =>
      have hd := st.data
      subst hd
      unfold shiftKeysLeftP
      rw [if_pos (by simp)]
      exact wp_ret ⟨g, by simpa using st, rfl⟩
  | cons b B ih =>
    intro A g0 g h o ls X vs fuel st hf
    cases fuel with
    | zero => simp at hf
    | succ f =>
      have hnd := st.nodup
      have hbr : b ≠ r ∧ b ∉ A ∧ b ∉ B := by
        simp only [List.nodup_append, List.cons_append, List.nodup_cons, List.mem_cons, List.mem_append, not_or] at hnd
        exact ⟨hnd.2.1.1.2.1, fun h => hnd.2.2 b h b (.inl rfl) rfl, hnd.2.1.1.1⟩
      unfold shiftKeysLeftP
      have hh : (b :: B ++ [r]).head? = some b := rfl
      rw [hh, if_neg (by simpa using hbr.1)]
      have hlb : Live h b := st.live (by simp)
      refine wp_bind (wp_nonnull rfl (wp_bind (wp_getKey st.sat hlb (wp_bind ?_))))
      refine wp_setKeySt st (A := A) (B := B ++ [r]) (by simp) fun h1 st1 => ?_
      refine wp_bind (wp_getNext st1.sat (st1.live (by simp)) ?_)
      have hN : g.N b = (B ++ [r]).head? := st.next_eq (A := A) (by simp)
      simp only [hN]
      have st2 := st1
      rw [show A ++ (b :: B ++ [r]) = (A ++ [b]) ++ (B ++ [r]) by simp] at st2
      refine wp_mono (ih (A ++ [b]) g0 _ h1 o _ X vs f st2 (by simp at hf; omega)) ?_
      rintro _ h2 ⟨g', st3, hR⟩
      refine ⟨g', ?_, hR⟩
      have e1 : (A ++ [b]).map (Pic.D { g with K := upd g.K b (g.K b - d) }) = A.map g.D ++ [(g.K b - d, g.W b)] := by
        rw [List.map_append]
        congr 1
        · exact map_D_congr (fun a ha => upd_ne _ _ fun e => hbr.2.1 (e ▸ ha)) (fun _ _ => rfl)
        · simp [Pic.D]
      have e2 : B.map (fun a => ((upd g.K b (g.K b - d)) a - d, g.W a)) = B.map (fun a => (g.K a - d, g.W a)) :=
        List.map_congr_left fun a ha => by
          have : a ≠ b := fun e => hbr.2.2 (e ▸ ha)
          rw [upd_ne _ _ this]
      have e3 : Pic.D { g with K := upd g.K b (g.K b - d) } r = g.D r := by
        simp [Pic.D, upd, Ne.symm hbr.1]
      rw [e1, e3] at st3
      dsimp only at st3
      rw [e2] at st3
      simpa using st3

omit [DecidableEq V] in
/-- The unlinking loop of `shift_left` in memory. -/
theorem wp_slLoopP (o r : Nat) (e : Int) : ∀ (B : List Nat) (fuel : Nat) (g : Pic V) (h : Heap V) (last : V),
    Sat g h → B.length < fuel → g.R (.var .nodePos) = (B ++ [r]).head? → g.R (.right o) = some r →
    g.R (.var .nxt) = none → r ∉ B → B.Nodup → Path g.N B (some r) →
    wp (slLoopP o e fuel last) (fun out h' => out = ((B.takeWhile (fun a => decide (g.K a ≤ e))).getLast?.map g.W).getD last ∧
      ∃ g', Sat g' h' ∧ g'.K = g.K ∧ g'.W = g.W ∧ g'.fr = g.fr ∧ g'.U = g.U ∧
      (∀ q, q ≠ .var .nodePos → g'.R q = g.R q) ∧
      g'.R (.var .nodePos) = (B.drop (B.takeWhile (fun a => decide (g.K a ≤ e))).length ++ [r]).head? ∧
      (∀ a, a ∉ B.takeWhile (fun a => decide (g.K a ≤ e)) → g'.N a = g.N a ∧ g'.P a = g.P a) ∧
      (∀ a ∈ B.takeWhile (fun a => decide (g.K a ≤ e)), g'.N a = none ∧ g'.P a = none)) h := by
  intro B
  induction B with
  | nil =>
    intro fuel g h last s hf hn hr hx hrB hnd hp
    cases fuel with
    | zero => simp at hf
    | succ f =>
      unfold slLoopP
      refine wp_bind (wp_get s (wp_bind (wp_get s ?_)))
      rw [hn, hr, if_pos (by simp)]
      exact wp_ret ⟨by simp, g, s, rfl, rfl, rfl, rfl, fun _ _ => rfl, by simpa using hn, fun _ _ => ⟨rfl, rfl⟩, by simp⟩
  | cons b B ih =>
    intro fuel g h last s hf hn hr hx hrB hnd hp
    cases fuel with
    | zero => simp at hf
    | succ f =>
      have hn' : g.R (.var .nodePos) = some b := by simpa using hn
      simp only [List.mem_cons, not_or] at hrB
      rw [List.nodup_cons] at hnd
      rw [path_cons] at hp
      have hlb : Live h b := s.live_root hn'
      unfold slLoopP
      refine wp_bind (wp_get s (wp_bind (wp_get s ?_)))
      rw [hn', hr, if_neg (by simpa using Ne.symm hrB.1)]
      refine wp_bind (wp_nonnull rfl (wp_bind (wp_getKey s hlb ?_)))
      by_cases hk : g.K b ≤ e
      · rw [if_pos hk]
        refine wp_bind (wp_getVal s hlb (wp_bind (wp_getNext s hlb (wp_bind ?_))))
        refine wp_assign s rfl (fun a ha => s.live_next hlb ha) fun h1 s1 => wp_bind ?_
        have hn1 : (g.set (.root (.var .nxt)) (g.N b)).R (.var .nodePos) = some b := by simp [Pic.set, upd, hn']
        refine wp_disconnectAll s1 (s1.live_root hn1) (fun h2 s2 => s2.live_root (r := .var .nodePos) hn1) fun h2 s2 => wp_bind ?_
        refine wp_moveTo s2 rfl (by simp) fun h3 s3 => ?_
        simp only [Pic.set, upd_same] at s3
        have hNb : g.N b = (B ++ [r]).head? := by rw [hp.1]; cases B <;> simp
        refine wp_mono (ih f _ h3 _ s3 (by simp at hf; omega) (by simp [hNb]) (by simp [upd, hr]) (by simp [upd]) hrB.2 hnd.2 ?_) ?_
        · refine (path_congr fun a ha => ?_).2 hp.2
          have : a ≠ b := fun e => hnd.1 (e ▸ ha)
          simp [upd, this]
        · dsimp only
          rintro out h4 ⟨ho, g', s4, k1, k2, k3, k4, k5, k6, k7, k8⟩
          have etw : (b :: B).takeWhile (fun a => decide (g.K a ≤ e)) = b :: B.takeWhile (fun a => decide (g.K a ≤ e)) := by
            rw [List.takeWhile_cons_of_pos (by simpa using hk)]
          rw [etw]
          refine ⟨?_, g', s4, k1, k2, k3, k4, fun q hq => ?_, ?_, fun a ha => ?_, fun a ha => ?_⟩
          · rw [ho]
            cases hL : (B.takeWhile (fun a => decide (g.K a ≤ e))) with
            | nil => simp
            | cons c C => simp [List.getLast?_cons]
          · rw [k5 q hq]
            by_cases e1 : q = .var .nxt
            · subst e1; simp [upd, hx]
            · simp [upd, e1, hq]
          · simpa using k6
          · simp only [List.mem_cons, not_or] at ha
            have := k7 a ha.2
            simpa [upd, ha.1] using this
          · rcases List.mem_cons.1 ha with rfl | ha
            · have hnb : a ∉ B.takeWhile (fun a => decide (g.K a ≤ e)) := fun h => hnd.1 (List.takeWhile_sublist _ |>.subset h)
              have := k7 a hnb
              simpa using this
            · exact k8 a ha
      · rw [if_neg hk]
        have etw : (b :: B).takeWhile (fun a => decide (g.K a ≤ e)) = [] := by
          rw [List.takeWhile_cons_of_neg (by simpa using hk)]
        rw [etw]
        exact wp_ret ⟨by simp, g, s, rfl, rfl, rfl, rfl, fun _ _ => rfl, by simpa using hn', fun _ _ => ⟨rfl, rfl⟩, by simp⟩

/-- Nodes put aside in `X'` are gone once nothing points to them any more. -/
theorem St.forget {g0 g1 g : Pic V} {h : Heap V} {o : Nat} {as : List Nat} {ls : List (Leaf V)} {X X' : Nat → Prop}
    {vs vs' : List Var} (env : Env g0 o X) (st : St g1 g h o as ls X' vs) (hX : ∀ a, X a → X' a)
    (hX' : ∀ a, X' a → X a ∨ (g1.N a = none ∧ g1.P a = none))
    (h0 : ∀ a, X a → g1.N a = g0.N a ∧ g1.P a = g0.P a ∧ g1.K a = g0.K a ∧ g1.W a = g0.W a)
    (hr : ∀ r, r ≠ .left o → r ≠ .right o → (∀ x, r ≠ .var x) → g1.R r = g0.R r) (hf : g0.fr ≤ g1.fr)
    (hv : ∀ x a, g.R (.var x) = some a → (a ∈ as ∨ X a) ∧ x ∈ vs') :
    St g0 { g with U := fun a => a ∈ as ∨ X a } h o as ls X vs' := by
  refine St.build env st.sat st.left st.right st.fwd st.bwd st.data st.nodup (fun a ha hx => st.disj a ha (hX a hx)) hv
    (fun r h1 h2 h3 => by rw [st.roots r h1 h2 h3, hr r h1 h2 h3]) (fun a ha => ?_) (Nat.le_trans hf st.mono) (fun _ => 0)
    (fun a hU hna hXa b hb => ?_)
  · obtain ⟨f1, f2, f3, f4⟩ := st.frame a (hX a ha)
    obtain ⟨e1, e2, e3, e4⟩ := h0 a ha
    exact ⟨by rw [f1, e1], by rw [f2, e2], by rw [f3, e3], by rw [f4, e4]⟩
  · rcases st.U a hU with h | h
    · exact absurd h hna
    · obtain ⟨f1, f2, f3, f4⟩ := st.frame a h
      rcases hX' a h with h' | h'
      · exact absurd h' hXa
      · rw [f1, f2, h'.1, h'.2] at hb; simp at hb

omit [DecidableEq V] in
theorem takeWhile_map_len {α β : Type} (f : α → β) (p : β → Bool) (l : List α) :
    (l.map f).takeWhile p = (l.takeWhile (p ∘ f)).map f := by
  rw [List.takeWhile_map]

/-- The last part of `shift_left` in memory. -/
theorem wp_slTailP {g0 g : Pic V} {h : Heap V} {o : Nat} {A B : List Nat} {r : Nat} {ls : List (Leaf V)} {X : Nat → Prop}
    {vs : List Var} (env : Env g0 o X) (st : St g0 g h o (A ++ (B ++ [r])) ls X vs) {init : V} {k size : Int}
    {ls' : List (Leaf V)} {b : Bool} {p : Option Nat} (hp : p = (B ++ [r]).head?)
    (hm : appendNewSegment (shiftKeysLeft ls A.length size) init k = .ok (ls', b))
    {α : Type} {Q : α → Heap V → Prop} {fin : Prog V α}
    (q : ∀ g' as' h', St g0 g' h' o as' ls' X vs → wp fin Q h') :
    wp (do
      shiftKeysLeftP (some r) size (g.fr + 1) p
      let _ ← appendNewP o init k
      fin : Prog V α) Q h := by
  have hd := st.data
  subst hd
  subst hp
  refine wp_bind ?_
  refine wp_mono (wp_shiftKeysLeftP size r B A g0 g h o _ X vs _ st (by have := st.length_le; simp at this ⊢; omega)) ?_
  rintro _ h1 ⟨g1, st1, hR1⟩
  have hl : shiftKeysLeft ((A ++ (B ++ [r])).map g.D) A.length size =
      A.map g.D ++ (B.map (fun a => (g.K a - size, g.W a)) ++ [g.D r]) := by
    have := shiftKeysLeft_eq (A.map g.D) (B.map g.D) (g.D r) size
    rw [List.length_map] at this
    rw [show (A ++ (B ++ [r])).map g.D = A.map g.D ++ (B.map g.D ++ [g.D r]) by simp, this]
    simp [Pic.D, Function.comp_def]
  rw [hl] at hm
  refine wp_bind (wp_mono (wp_appendNewP env st1 hm) ?_)
  rintro _ h2 ⟨_, g2, as2, st2, _⟩
  exact q g2 as2 h2 st2

/-- Unlinking the leaves inside the removed range, and joining. -/
theorem wp_slMid {g0 g : Pic V} {h : Heap V} {o : Nat} {A B : List Nat} {np r : Nat} {ls : List (Leaf V)} {X : Nat → Prop}
    (env : Env g0 o X) (st : St g0 g h o (A ++ np :: (B ++ [r])) ls X [.nodePos]) {s e : Int}
    {α : Type} {Q : α → Heap V → Prop} {fin : Prog V α}
    (q : ∀ (g1 g' : Pic V) (h' : Heap V) (X' : Nat → Prop) (A' : List Nat), Env g1 o X' →
      St g1 g' h' o (A' ++ (B.drop (B.takeWhile (fun a => decide (g.K a ≤ e))).length ++ [r]))
        (joinPre (A.map g.D) s (((B.takeWhile (fun a => decide (g.K a ≤ e))).getLast?.map g.W).getD (g.W np)) ++
          (B.drop (B.takeWhile (fun a => decide (g.K a ≤ e))).length ++ [r]).map g.D) X' [.startPos, .nodePos] →
      A'.length = (joinPre (A.map g.D) s (((B.takeWhile (fun a => decide (g.K a ≤ e))).getLast?.map g.W).getD (g.W np))).length →
      g'.R (.var .nodePos) = (B.drop (B.takeWhile (fun a => decide (g.K a ≤ e))).length ++ [r]).head? →
      (∀ g2 h2 as' ls', St g1 g2 h2 o as' ls' X' [] → ∃ g3, St g0 g3 h2 o as' ls' X []) → wp fin Q h') :
    wp (do
      setKey np s
      assign (.root (.var .startPos)) (some np)
      assign (.root (.var .nodePos)) (← getNext np)
      let last0 ← getVal np
      let last ← slLoopP o e (← loopBound) last0
      setVal np last
      assign (.next np) (← get (.var .nodePos))
      let q ← nonnull (← get (.var .nodePos))
      assign (.prev q) (some np)
      slJoinP np last
      fin : Prog V α) Q h := by
  have hd := st.data
  subst hd
  have hnd := st.nodup
  have hne : np ∉ A ∧ np ∉ B ∧ np ≠ r ∧ r ∉ B ∧ B.Nodup ∧ r ∉ A ∧ (∀ a ∈ B, a ∉ A) := by
    simp only [List.nodup_append, List.nodup_cons, List.mem_append, List.mem_cons, not_or] at hnd
    obtain ⟨_, ⟨⟨a1, a2, _⟩, a3, _, a5⟩, a6⟩ := hnd
    exact ⟨fun h => a6 np h np (.inl rfl) rfl, a1, a2, fun h => a5 r h r (.inl rfl) rfl, a3,
      fun h => a6 r h r (.inr (.inr (.inl rfl))) rfl, fun a ha h => a6 a h a (.inr (.inl ha)) rfl⟩
  obtain ⟨hnA, hnB, hnr, hrB, hBn, hrA, hBA⟩ := hne
  refine wp_bind (wp_setKeySt st rfl fun h1 st1 => wp_bind ?_)
  refine wp_setVar st1 (vs' := [.startPos, .nodePos]) (by simp) (by simp) (by simp) fun h2 st2 => ?_
  refine wp_bind (wp_getNext st2.sat (st2.live (by simp)) (wp_bind ?_))
  have hNn : g.N np = (B ++ [r]).head? := st.next_eq (A := A) rfl
  refine wp_setVar st2 (vs' := [.startPos, .nodePos]) (fun a ha => ?_) (by simp) (by simp) fun h3 st3 => ?_
  · have ha' : g.N np = some a := ha
    rw [hNn] at ha'
    have := List.mem_of_head? ha'
    simp at this ⊢; tauto
  simp only [Pic.set] at st3
  refine wp_bind (wp_getVal st3.sat (st3.live (by simp)) (wp_bind (wp_loopBound st3.sat (wp_bind ?_))))
  have hKB : B.takeWhile (fun a => decide (upd g.K np s a ≤ e)) = B.takeWhile (fun a => decide (g.K a ≤ e)) := by
    have : ∀ l : List Nat, np ∉ l → l.takeWhile (fun a => decide (upd g.K np s a ≤ e)) = l.takeWhile (fun a => decide (g.K a ≤ e)) := by
      intro l
      induction l with
      | nil => simp
      | cons a t ih =>
        intro hl
        simp only [List.mem_cons, not_or] at hl
        simp only [List.takeWhile_cons, ih hl.2, upd_ne _ _ (Ne.symm hl.1)]
    exact this B hnB
  have hfw := st3.fwd
  rw [path_append, path_cons, path_append] at hfw
  refine wp_mono (wp_slLoopP o r e B _ _ h3 _ st3.sat (by have := st3.length_le; simp at this ⊢; omega)
    (by simp [upd, hNn]) (by rw [st3.right]; simp [List.getLast?_append, List.getLast?_cons]) ?_ hrB hBn
    (by simpa using hfw.2.2.1)) ?_
  · by_contra hx
    obtain ⟨a, ha⟩ := Option.ne_none_iff_exists'.1 hx
    have := (st3.vars .nxt a ha).2
    simp at this
  rintro last h4 ⟨hlast, g4, s4, k1, k2, k3, k4, k5, k6, k7, k8⟩
  dsimp only at hlast k1 k2 k3 k4 k5 k6 k7 k8
  rw [hKB] at hlast k6 k7 k8
  clear hKB
  rw [← hlast] at q
  generalize hM : B.takeWhile (fun a => decide (g.K a ≤ e)) = M at *
  have hB : B = M ++ B.drop M.length := by
    conv_lhs => rw [← List.takeWhile_append_dropWhile (p := fun a => decide (g.K a ≤ e)) (l := B)]
    rw [hM]
    congr 1
    conv_rhs => rw [← List.takeWhile_append_dropWhile (p := fun a => decide (g.K a ≤ e)) (l := B), hM]
    simp
  generalize B.drop M.length = B2 at *
  subst hB
  obtain ⟨c, C, hcC⟩ : ∃ c C, B2 ++ [r] = c :: C := by cases B2 <;> simp
  rw [hcC] at k6
  have k6' : g4.R (.var .nodePos) = some c := k6
  have hcmem : ∀ a, a ∈ c :: C ↔ a ∈ B2 ∨ a = r := fun a => by rw [← hcC]; simp
  have hMc : c ∉ M := by
    intro hm
    rcases (hcmem c).1 (by simp) with h | h
    · rw [List.nodup_append] at hBn; exact hBn.2.2 c hm c h rfl
    · exact hrB (by simp [← h, hm])
  have hncA : c ∉ A := by
    rcases (hcmem c).1 (by simp) with h | h
    · exact hBA c (by simp [h])
    · rw [h]; exact hrA
  have hnM : np ∉ M := fun h => hnB (by simp [h])
  have hMA : ∀ a ∈ M, a ∉ A := fun a ha => hBA a (by simp [ha])
  have hnc : np ≠ c := by
    rintro rfl
    rcases (hcmem np).1 (by simp) with h | h
    · exact hnB (by simp [h])
    · exact hnr h
  have hsp4 : g4.R (.var .startPos) = some np := by rw [k5 _ (by simp)]; simp [upd]
  have hvars4 : ∀ x a, g4.R (.var x) = some a → (x = .startPos ∧ a = np) ∨ (x = .nodePos ∧ a = c) := by
    intro x a ha
    by_cases e1 : x = .nodePos
    · subst e1; rw [k6'] at ha; right; exact ⟨rfl, by simpa using ha.symm⟩
    · rw [k5 _ (by simp [e1])] at ha
      have := (st3.vars x a ha).2
      simp only [List.mem_cons, List.not_mem_nil, or_false] at this
      rcases this with rfl | rfl
      · left; refine ⟨rfl, ?_⟩
        have : some np = some a := by simpa [upd] using ha
        simpa using this.symm
      · exact absurd rfl e1
  refine wp_bind (wp_setVal s4 (s4.live_root hsp4) fun h5 s5 => wp_bind (wp_get s5 (wp_bind ?_)))
  simp only [k6']
  refine wp_setNext s5 (s5.live_root (r := .var .startPos) hsp4)
    (fun b hb => by cases hb; exact s5.live_root (r := .var .nodePos) k6') fun h6 s6 => ?_
  refine wp_bind (wp_get s6 (wp_bind (wp_nonnull k6' (wp_bind ?_))))
  refine wp_setPrev s6 (s6.live_root (r := .var .nodePos) k6')
    (fun b hb => by cases hb; exact s6.live_root (r := .var .startPos) hsp4) fun h7 s7 => wp_bind ?_
  have hlive7 : Live h7 np := s7.live_root (r := .var .startPos) hsp4
  have hP4 : g4.P np = A.getLast? := by
    rw [(k7 np hnM).2]
    exact st.prev_eq rfl
  have hP7 : upd g4.P c (some np) np = A.getLast? := by rw [upd_ne _ _ hnc, hP4]
  -- the data of the leaves that stay
  have hD : ∀ (K' : Nat → Int) (W' : Nat → V) (l : List Nat), K' = upd g.K np s → W' = upd g.W np last → np ∉ l →
      l.map (fun a => (K' a, W' a)) = l.map g.D := by
    intro K' W' l e1 e2 hl
    subst e1 e2
    refine List.map_congr_left fun a ha => ?_
    have : a ≠ np := fun e => hl (e ▸ ha)
    simp [Pic.D, upd, this]
  have hncC : np ∉ c :: C := by
    rw [hcmem]; rintro (h | h)
    · exact hnB (by simp [h])
    · exact hnr h
  -- without joining
  have nojoin : joinPre (A.map g.D) s last = A.map g.D ++ [(s, last)] → wp fin Q h7 := by
    intro hj
    have f : Fin { g with K := upd g.K np s, R := upd (upd g.R (.var .startPos) (some np)) (.var .nodePos) (g.N np) }
        { g4 with W := upd g4.W np last, N := upd g4.N np (some c), P := upd g4.P c (some np) } h7 A M [] C np c := by
      refine ⟨s7, fun a ha => ?_, by simp, fun a ha => ?_, by simp, by simp, List.nodup_nil, fun a ha => ?_, fun a ha => ?_,
        fun r hr => ?_, fun a ha => .inl (by rw [← k4]; exact ha), Nat.le_of_eq k3.symm, fun _ => 0, fun a ha b hb => ?_⟩
      · simp only [List.append_nil, List.mem_cons, not_or] at ha
        show upd g4.N np (some c) a = _
        rw [upd_ne _ _ ha.1, (k7 a ha.2).1]
      · simp only [List.append_nil, List.mem_cons, not_or] at ha
        show upd g4.P c (some np) a = _
        rw [upd_ne _ _ ha.1, (k7 a ha.2).2]
      · show g4.K a = _
        rw [k1]
      · simp only [List.append_nil, List.mem_cons, not_or] at ha
        show upd g4.W np last a = _
        rw [upd_ne _ _ ha.1, k2]
      · show g4.R r = _
        rw [k5 r (hr _)]
      · have e1 : a ≠ np := fun e => hnM (e ▸ ha)
        have e2 : a ≠ c := fun e => hMc (e ▸ ha)
        simp only [upd_ne _ _ e1, upd_ne _ _ e2, k8 a ha] at hb
        simp at hb
    have st3' := st3
    rw [show A ++ np :: (M ++ B2 ++ [r]) = A ++ np :: (M ++ c :: C) by rw [← hcC]; simp] at st3'
    have st8 := f.toSt (vs' := [.startPos, .nodePos]) env st3' (fun x a ha => by
      rcases hvars4 x a ha with ⟨rfl, rfl⟩ | ⟨rfl, rfl⟩ <;> simp)
    refine q g0 { g4 with
        W := upd g4.W np last, N := upd g4.N np (some c), P := upd g4.P c (some np),
        U := fun a => a ∈ A ++ np :: ([] ++ c :: C) ∨ X a } h7 X (A ++ [np]) env ?_ (by rw [hj]; simp) (by rw [hcC]; exact k6') (fun g2 h2 as' ls' st => ⟨g2, st⟩)
    rotate_left
    · rw [hj, hcC, show A ++ [np] ++ c :: C = A ++ np :: ([] ++ c :: C) by simp]
      have e1 : (A ++ np :: ([] ++ c :: C)).map (fun a => (g4.K a, upd g4.W np last a)) =
          A.map g.D ++ [(s, last)] ++ (c :: C).map g.D := by
        have h1 := hD g4.K (upd g4.W np last) A k1 (by rw [k2]) hnA
        have h2 := hD g4.K (upd g4.W np last) (c :: C) k1 (by rw [k2]) hncC
        rw [List.map_append, List.map_cons, List.nil_append, h1, h2]
        simp [k1]
      rw [← e1]
      exact st8
  unfold slJoinP
  refine wp_bind (wp_getPrev s7 hlive7 ?_)
  simp only [hP7]
  rcases nil_or_snoc A with hA | ⟨A', p, hA⟩
  · subst hA
    exact wp_ret (nojoin (by simp [joinPre]))
  · subst hA
    simp only [List.getLast?_append, List.getLast?_singleton, Option.some_or] at hP7 ⊢
    have hlp : Live h7 p := s7.live_prev hlive7 hP7
    refine wp_bind (wp_getVal s7 hlp ?_)
    have hpn : p ≠ np := fun e => hnA (by simp [e])
    have hWp : upd g4.W np last p = g.W p := by rw [upd_ne _ _ hpn, k2]
    simp only [hWp]
    by_cases hv : g.W p = last
    · rw [if_pos hv]
      have hj : joinPre ((A' ++ [p]).map g.D) s last = (A' ++ [p]).map g.D := by
        simp [joinPre, Pic.D, hv]
      have hpc : p ≠ c := fun e => hncA (by simp [← e])
      have hpM : p ∉ M := fun h => hMA p h (by simp)
      refine wp_bind (wp_getNext s7 hlive7 (wp_bind ?_))
      simp only [upd_same]
      refine wp_setNext s7 hlp (fun b hb => by cases hb; exact s7.live_root (r := .var .nodePos) k6') fun h8 s8 => ?_
      have hl8 : Live h8 np := s8.live_root (r := .var .startPos) hsp4
      have hN8 : upd (upd g4.N np (some c)) p (some c) np = some c := by rw [upd_ne _ _ (Ne.symm hpn)]; simp
      refine wp_bind (wp_getNext s8 hl8 (wp_bind (wp_nonnull hN8 (wp_bind (wp_getPrev s8 hl8 (wp_bind ?_))))))
      simp only [hP7]
      refine wp_setPrev s8 (s8.live_root (r := .var .nodePos) k6')
        (fun b hb => by cases hb; exact s8.live_prev hl8 hP7) fun h9 s9 => ?_
      refine wp_disconnectAll s9 (s9.live_root (r := .var .startPos) hsp4)
        (fun h' s' => s'.live_root (r := .var .startPos) hsp4) fun h10 s10 => ?_
      have f : Fin { g with K := upd g.K np s, R := upd (upd g.R (.var .startPos) (some np)) (.var .nodePos) (g.N np) }
          { g4 with W := upd g4.W np last, N := upd (upd (upd g4.N np (some c)) p (some c)) np none,
                    P := upd (upd (upd g4.P c (some np)) c (some p)) np none } h10 A' (np :: M) [] C p c := by
        refine ⟨s10, fun a ha => ?_, ?_, fun a ha => ?_, ?_, by simp, List.nodup_nil, fun a ha => ?_, fun a ha => ?_,
          fun r hr => ?_, fun a ha => .inl (by rw [← k4]; exact ha), Nat.le_of_eq k3.symm, fun _ => 0, fun a ha b hb => ?_⟩
        · simp only [List.append_nil, List.mem_cons, not_or] at ha
          show upd (upd (upd g4.N np (some c)) p (some c)) np none a = _
          rw [upd_ne _ _ ha.2.1, upd_ne _ _ ha.1, upd_ne _ _ ha.2.1, (k7 a ha.2.2).1]
        · simp [upd, hpn]
        · simp only [List.append_nil, List.mem_cons, not_or] at ha
          show upd (upd (upd g4.P c (some np)) c (some p)) np none a = _
          rw [upd_ne _ _ ha.2.1, upd_ne _ _ ha.1, upd_ne _ _ ha.1, (k7 a ha.2.2).2]
        · simp [upd, Ne.symm hnc]
        · show g4.K a = _
          rw [k1]
        · simp only [List.append_nil, List.mem_cons, not_or] at ha
          show upd g4.W np last a = _
          rw [upd_ne _ _ ha.2.1, k2]
        · show g4.R r = _
          rw [k5 r (hr _)]
        · by_cases e0 : a = np
          · subst e0; simp at hb
          · have ha : a ∈ M := (List.mem_cons.1 ha).resolve_left e0
            have e1 : a ≠ p := fun e => hpM (e ▸ ha)
            have e2 : a ≠ c := fun e => hMc (e ▸ ha)
            simp only [upd_ne _ _ e0, upd_ne _ _ e1, upd_ne _ _ e2, k8 a ha] at hb
            simp at hb
      have st3' := st3
      rw [show A' ++ [p] ++ np :: (M ++ B2 ++ [r]) = A' ++ p :: ((np :: M) ++ c :: C) by rw [← hcC]; simp] at st3'
      have hnX : ¬ X np := st.disj np (by simp)
      have hXn : ∀ a, X a → a ≠ np := fun a ha e => hnX (e ▸ ha)
      let g1 : Pic V := { g0 with
        N := upd g0.N np none, P := upd g0.P np none, K := upd g0.K np s, W := upd g0.W np last, fr := g.fr }
      have env' : Env g1 o (fun a => X a ∨ a = np) := by
        refine ⟨fun a b ha e => ?_, fun a b ha e => ?_, fun r a h1 h2 e => .inl (env.roots r a h1 h2 e), env.vars,
          fun a ha => ?_⟩
        · rcases ha with ha | rfl
          · exact .inl (env.closedN a b ha (by simpa [g1, upd, hXn a ha] using e))
          · simp [g1] at e
        · rcases ha with ha | rfl
          · exact .inl (env.closedP a b ha (by simpa [g1, upd, hXn a ha] using e))
          · simp [g1] at e
        · rcases ha with ha | rfl
          · exact Nat.lt_of_lt_of_le (env.lt a ha) st.mono
          · exact st.lt (by simp)
      have h0 : ∀ a, X a → g1.N a = g0.N a ∧ g1.P a = g0.P a ∧ g1.K a = g0.K a ∧ g1.W a = g0.W a := fun a ha => by
        simp [g1, upd, hXn a ha]
      have st8 := f.toSt' (vs' := [.startPos, .nodePos]) (X' := fun a => X a ∨ a = np) env env' st3'
        (fun a ha => ha.imp_right fun h => by simp [h]) h0
        (fun a ha hX => by
          have : a = np := by
            rcases hX with hX | hX
            · exact absurd hX (st3'.disj a (by simp at ha ⊢; tauto))
            · exact hX
          subst this
          refine ⟨by simp [g1], by simp [g1], by show g4.K a = _; rw [k1]; simp [g1], by simp [g1]⟩)
        (fun a ha => .inl ha) (fun _ _ _ _ => rfl) (by show g.fr ≤ g4.fr; rw [k3]; exact Nat.le_refl _)
        (fun x a ha => by
          rcases hvars4 x a ha with ⟨rfl, rfl⟩ | ⟨rfl, rfl⟩ <;> simp)
      refine q g1 { g4 with
        W := upd g4.W np last, N := upd (upd (upd g4.N np (some c)) p (some c)) np none,
        P := upd (upd (upd g4.P c (some np)) c (some p)) np none,
        U := fun a => a ∈ A' ++ p :: ([] ++ c :: C) ∨ (X a ∨ a = np) } h10 _ (A' ++ [p]) env' ?_ (by rw [hj]; simp) (by rw [hcC]; exact k6') (fun g2 h2 as' ls' st' => ?_)
      rotate_left
      · refine ⟨_, st'.forget (vs' := []) env (fun a ha => .inl ha) (fun a ha => ?_) h0 (fun _ _ _ _ => rfl) st.mono
          (fun x a ha => ?_)⟩
        · rcases ha with ha | rfl
          · exact .inl ha
          · right; simp [g1]
        · have := (st'.vars x a ha).2
          simp at this
      · rw [hj, hcC, show A' ++ [p] ++ c :: C = A' ++ p :: ([] ++ c :: C) by simp]
        have e1 : (A' ++ p :: ([] ++ c :: C)).map (fun a => (g4.K a, upd g4.W np last a)) =
            (A' ++ [p]).map g.D ++ (c :: C).map g.D := by
          have h1 := hD g4.K (upd g4.W np last) (A' ++ [p]) k1 (by rw [k2]) hnA
          have h2 := hD g4.K (upd g4.W np last) (c :: C) k1 (by rw [k2]) hncC
          rw [show A' ++ p :: ([] ++ c :: C) = (A' ++ [p]) ++ (c :: C) by simp, List.map_append, h1, h2]
        rw [← e1]
        exact st8
    · rw [if_neg hv]
      refine wp_ret (nojoin ?_)
      simp [joinPre, Pic.D, hv]

theorem insPos_lt {ls : List (Leaf V)} {k : Int} {i j : Nat} (h : insPos ls k i = some j) : i ≤ j ∧ j < ls.length := by
  rw [insPos, Option.map_eq_some_iff] at h
  obtain ⟨k', hk', rfl⟩ := h
  have := (List.findIdx?_eq_some_iff_findIdx_eq.1 hk').1
  simp at this
  omega

theorem mem_getLast {as : List Nat} (hn : as.Nodup) {i r : Nat} (hr : as.getLast? = some r) :
    as[i]? = some r ↔ i = as.length - 1 := by
  rw [List.getLast?_eq_getElem?] at hr
  constructor
  · intro h
    rw [← hr] at h
    have hi : i < as.length := by
      by_contra hc
      rw [List.getElem?_eq_none (by omega), hr] at h; simp at h
    exact (List.getElem?_inj hi hn).1 h
  · rintro rfl; exact hr

/-- The first two leaves after a bounds check. -/
theorem bounds_map {g : Pic V} {as : List Nat} {lo hi : Int} (hb : bounds (as.map g.D) = .ok (lo, hi)) :
    ∃ l r, as.head? = some l ∧ as.getLast? = some r ∧ g.K l = lo ∧ g.K r = hi := by
  unfold bounds at hb
  cases hh : as.head? with
  | none => simp [hh] at hb
  | some a =>
    cases hl : as.getLast? with
    | none => simp [hl] at hb
    | some b =>
      simp only [List.head?_map, hh, List.getLast?_map, hl, Option.map_some, Outcome.ok.injEq, Prod.mk.injEq] at hb
      exact ⟨a, b, rfl, rfl, hb.1, hb.2⟩

/-- Finding the first leaf of the removed range. -/
theorem wp_slStartP {g0 g : Pic V} {h : Heap V} {o : Nat} {as : List Nat} {X : Nat → Prop}
    (st : St g0 g h o as (as.map g.D) X []) {l : Nat} (hl : as.head? = some l) (s : Int) :
    wp (slStartP s (g.K l) l) (fun _ h' => ∃ g', St g0 g' h' o as (as.map g.D) X [.nodePos] ∧
      g'.R (.var .nodePos) = (if g.K l = s then some 0 else insPos (as.map g.D) s 1).bind (as[·]?) ∧
      g'.K = g.K ∧ g'.W = g.W) h := by
  unfold slStartP
  by_cases hk : g.K l = s
  · rw [if_pos hk, if_pos hk]
    refine wp_setVar st (vs' := [.nodePos]) (fun a ha => by cases ha; exact List.mem_of_head? hl) (by simp) (by simp)
      fun h1 st1 => ⟨_, st1, ?_, rfl, rfl⟩
    simp [Pic.set, ← hl, List.head?_eq_getElem?]
  · rw [if_neg hk, if_neg hk]
    refine wp_bind (wp_loopBound st.sat (wp_bind (wp_getNext st.sat (st.live (List.mem_of_head? hl)) (wp_bind ?_))))
    obtain ⟨T, rfl⟩ : ∃ T, as = l :: T := by
      cases as with
      | nil => simp at hl
      | cons a T => simp at hl; exact ⟨T, by rw [hl]⟩
    rw [st.next_eq (A := []) rfl]
    have hf := st.fwd
    rw [path_cons] at hf
    have hll := st.length_le
    refine wp_insPosP st.sat s T hf.2 (fun a ha => st.live (by have := List.mem_of_head? ha; simp [this])) _
      (by simp at hll; omega) ?_
    have hfi := find_insPos g (l :: T) s 1
    rw [List.drop_one, List.tail_cons] at hfi
    rw [hfi]
    exact wp_setVar st (vs' := [.nodePos]) (fun a ha => mem_of_bind ha) (by simp) (by simp)
      fun h1 st1 => ⟨_, st1, by simp [Pic.set], rfl, rfl⟩

/-- `shift_left` in memory. -/
theorem wp_shiftLeftP {g0 g : Pic V} {h : Heap V} {o : Nat} {as : List Nat} {ls : List (Leaf V)} {X : Nat → Prop}
    (env : Env g0 o X) (st : St g0 g h o as ls X []) {init : V} {s e : Int} {ls' : List (Leaf V)} {b : Bool}
    (hm : shiftLeftLeaves ls init s e = .ok (ls', b)) :
    wp (shiftLeftP o init s e) (fun out h' => out = b ∧ ∃ g' as', St g0 g' h' o as' ls' X [] ∧ (b = true → as' = as)) h := by
  have hd := st.data
  subst hd
  unfold shiftLeftLeaves at hm
  unfold shiftLeftP
  by_cases hse : s ≥ e
  · rw [if_pos hse] at hm ⊢
    cases hm
    exact wp_pure ⟨rfl, g, as, st, fun _ => rfl⟩
  · rw [if_neg hse] at hm ⊢
    cases hb : bounds (as.map g.D) with
    | err x => rw [hb] at hm; cases hm
    | ub => rw [hb] at hm; cases hm
    | ok lh =>
      obtain ⟨lo, hi⟩ := lh
      rw [hb] at hm
      obtain ⟨l, r, hl, hr, rfl, rfl⟩ := bounds_map hb
      refine wp_bind (wp_get st.sat (wp_bind (wp_nonnull (st.left.trans hl) (wp_bind ?_))))
      refine wp_getKey st.sat (st.live (List.mem_of_head? hl)) (wp_bind (wp_get st.sat (wp_bind ?_)))
      refine wp_nonnull (st.right.trans hr) (wp_bind (wp_getKey st.sat (st.live (List.mem_of_getLast? hr)) ?_))
      dsimp only at hm
      by_cases h1 : s < g.K l ∨ e < g.K l
      · rw [if_pos h1] at hm ⊢
        cases hm
        exact wp_pure ⟨rfl, g, as, st, fun _ => rfl⟩
      rw [if_neg h1] at hm ⊢
      by_cases h2 : s > g.K r ∨ e > g.K r
      · rw [if_pos h2] at hm ⊢
        cases hm
        exact wp_pure ⟨rfl, g, as, st, fun _ => rfl⟩
      rw [if_neg h2] at hm ⊢
      refine wp_bind (wp_mono (wp_slStartP st hl s) ?_)
      rintro _ h3 ⟨g3, st3, hnp, hK, hW⟩
      refine wp_bind (wp_get st3.sat ?_)
      rw [hnp]
      have hDD : g3.D = g.D := by funext a; simp [Pic.D, hK, hW]
      generalize hidx : (if g.K l = s then some 0 else insPos (as.map g.D) s 1) = idx at *
      cases idx with
      | none =>
        cases hm
        refine wp_pure ⟨rfl, g3, as, ?_, fun _ => rfl⟩
        have hv : ∀ x, g3.R (.var x) = none := fun x => by
          by_contra hx
          obtain ⟨a, ha⟩ := Option.ne_none_iff_exists'.1 hx
          have := (st3.vars x a ha).2
          have hx' : x = .nodePos := by simpa using this
          subst hx'
          simp at hnp
          exact hx hnp
        exact { st3 with vars := fun x a ha => by rw [hv] at ha; simp at ha }
      | some i =>
        have hi : i < as.length := by
          by_cases hk : g.K l = s
          · rw [if_pos hk] at hidx
            cases hidx
            cases as with
            | nil => simp at hl
            | cons => simp
          · rw [if_neg hk] at hidx
            simpa using (insPos_lt hidx).2
        obtain ⟨np, hnpi⟩ : ∃ np, as[i]? = some np := ⟨as[i], by simp [hi]⟩
        simp only [Option.bind_some, hnpi] at hnp ⊢
        dsimp only at hm
        have hir : np = r ↔ i = as.length - 1 := by
          rw [← mem_getLast st.nodup hr, hnpi]; simp
        have hRr : g3.R (.right o) = some r := st3.right.trans hr
        by_cases hir' : np = r
        · rw [if_pos hir']
          rw [List.length_map, if_pos (hir.1 hir')] at hm
          cases ha : appendNewSegment (as.map g.D) init (if g.K r ≤ e then s else g.K r - (e - s)) with
          | err x => rw [ha] at hm; cases hm
          | ub => rw [ha] at hm; cases hm
          | ok x =>
            obtain ⟨ls2, b2⟩ := x
            rw [ha] at hm
            cases hm
            refine wp_bind (wp_mono (wp_appendNewP env st3 ha) ?_)
            rintro _ h4 ⟨rfl, g4, as4, st4, hsame⟩
            refine wp_bind (wp_dropVar st4 (vs' := []) (by simp) fun h5 st5 => wp_pure ⟨rfl, _, as4, st5, fun hb => ?_⟩)
            exact hsame (by simpa using hb)
        · rw [if_neg hir']
          rw [List.length_map, if_neg (fun h => hir' (hir.2 h))] at hm
          simp only [List.getElem?_map, hnpi, Option.map_some] at hm
          obtain ⟨A, T, rfl, rfl⟩ := split_at hnpi
          obtain ⟨B, rfl⟩ : ∃ B, T = B ++ [r] := by
            rcases nil_or_snoc T with rfl | ⟨B, r', rfl⟩
            · simp at hr; exact absurd hr hir'
            · refine ⟨B, ?_⟩
              simp [List.getLast?_append, List.getLast?_cons] at hr
              rw [hr]
          have hlnp : Live h3 np := st3.live (by simp)
          refine wp_bind (wp_getKey st3.sat hlnp ?_)
          rw [hK]
          by_cases he : e < g.K np
          · rw [if_pos he]
            rw [if_pos (show e < (g.D np).1 from he)] at hm
            cases ha : appendNewSegment (shiftKeysLeft ((A ++ np :: (B ++ [r])).map g.D) A.length (e - s)) init
                (g.K r - (e - s)) with
            | err x => rw [ha] at hm; cases hm
            | ub => rw [ha] at hm; cases hm
            | ok x =>
              obtain ⟨ls2, b2⟩ := x
              rw [ha] at hm
              cases hm
              have st3' := st3
              rw [show A ++ np :: (B ++ [r]) = A ++ ((np :: B) ++ [r]) by simp] at st3'
              refine wp_bind (wp_get st3.sat (wp_bind (wp_loopBound st3.sat ?_)))
              rw [hRr]
              refine wp_slTailP env st3' (ls' := ls2) (b := b2) (by simp) ?_ fun g4 as4 h4 st4 => ?_
              · simpa using ha
              · exact wp_bind (wp_dropVar st4 (vs' := []) (by simp) fun h5 st5 => wp_pure ⟨rfl, _, as4, st5, by simp⟩)
          · rw [if_neg he]
            rw [if_neg (show ¬ e < (g.D np).1 from he)] at hm
            have st3' := st3
            rw [← hDD] at st3'
            refine wp_slMid env st3' fun g4 g5 h5 X' A' env' st5 hA' hn5 hback => ?_
            rw [hK, hW, hDD] at st5 hA'
            rw [hK] at hn5
            have hRr5 : g5.R (.right o) = some r := by rw [st5.right]; simp [List.getLast?_append]
            refine wp_bind (wp_get st5.sat (wp_bind (wp_loopBound st5.sat (wp_bind (wp_get st5.sat ?_)))))
            rw [hRr5]
            -- the same in the list
            have hT : ((A ++ np :: (B ++ [r])).map g.D).drop (A.length + 1) = B.map g.D ++ [g.D r] := by
              rw [show (A ++ np :: (B ++ [r])).map g.D = A.map g.D ++ g.D np :: (B.map g.D ++ [g.D r]) by simp]
              exact drop_snoc (by simp)
            have hmid : (((A ++ np :: (B ++ [r])).map g.D).drop (A.length + 1)).dropLast.takeWhile (fun n => decide (n.1 ≤ e)) =
                (B.takeWhile (fun a => decide (g.K a ≤ e))).map g.D := by
              rw [hT, List.dropLast_append_of_ne_nil (by simp)]
              simp only [List.dropLast_singleton, List.append_nil, List.takeWhile_map]
              rfl
            rw [hmid] at hm
            have hlast : ((B.takeWhile (fun a => decide (g.K a ≤ e))).map g.D).getLast?.map (·.2) =
                (B.takeWhile (fun a => decide (g.K a ≤ e))).getLast?.map g.W := by
              rw [List.getLast?_map]
              cases (B.takeWhile (fun a => decide (g.K a ≤ e))).getLast? <;> simp [Pic.D]
            have htake : ((A ++ np :: (B ++ [r])).map g.D).take A.length = A.map g.D := by simp
            have hlen : (B.takeWhile (fun a => decide (g.K a ≤ e))).length ≤ B.length :=
              (List.takeWhile_sublist _).length_le
            have hrest : ((A ++ np :: (B ++ [r])).map g.D).drop (A.length + 1 +
                (B.takeWhile (fun a => decide (g.K a ≤ e))).length) =
                (B.drop (B.takeWhile (fun a => decide (g.K a ≤ e))).length ++ [r]).map g.D := by
              rw [← List.drop_drop, hT, List.drop_append_of_le_length (by simpa using hlen), List.map_append, List.map_drop]
              simp
            rw [hlast, htake, List.length_map, hrest] at hm
            cases ha : appendNewSegment (shiftKeysLeft (joinPre (A.map g.D) s
                (((B.takeWhile (fun a => decide (g.K a ≤ e))).getLast?.map g.W).getD (g.W np)) ++
                (B.drop (B.takeWhile (fun a => decide (g.K a ≤ e))).length ++ [r]).map g.D) (joinPre (A.map g.D) s
                (((B.takeWhile (fun a => decide (g.K a ≤ e))).getLast?.map g.W).getD (g.W np))).length (e - s)) init
                (g.K r - (e - s)) with
            | err x => rw [show (g.D np).2 = g.W np from rfl, ha] at hm; cases hm
            | ub => rw [show (g.D np).2 = g.W np from rfl, ha] at hm; cases hm
            | ok x =>
              obtain ⟨ls2, b2⟩ := x
              rw [show (g.D np).2 = g.W np from rfl, ha] at hm
              cases hm
              rw [← hA'] at ha
              refine wp_slTailP env' st5 (ls' := ls2) (b := b2) hn5 ha fun g6 as6 h6 st6 => ?_
              refine wp_bind (wp_bind (wp_dropVar st6 (vs' := [.nodePos]) (by simp) fun h7 st7 => wp_bind ?_))
              refine wp_dropVar st7 (vs' := []) (by simp) fun h8 st8 => wp_ret (wp_pure ⟨rfl, ?_⟩)
              obtain ⟨g9, st9⟩ := hback _ h8 as6 ls2 st8
              exact ⟨g9, as6, st9, by simp⟩

end
end Mdds.FST.Mem
