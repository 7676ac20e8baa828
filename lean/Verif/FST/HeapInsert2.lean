import Verif.FST.HeapInsert

/-!
# Insertion in memory: unlinking and the end node
-/
namespace Mdds.FST.Mem

variable {V : Type}

set_option maxHeartbeats 1000000 in
/-- The loop of `insert_to_pos`: with `M` the leaves between the new start node `q` and the end
position `ep`.  Afterwards nothing links to the leaves of `M` except variables and `ep`. -/
theorem wp_insLoopP (ep : Nat) : ∀ (M : List Nat) (fuel : Nat) (q : Nat) (g : Pic V) (h : Heap V) (old : V) (ch : Bool),
    Sat g h → M.length < fuel → g.R (.var .cur) = (M ++ [ep]).head? → g.R (.var .endPos) = some ep →
    ep ∉ q :: M → (q :: M).Nodup → Path g.N M (some ep) → Path g.P M.reverse (some q) →
    wp (insLoopP fuel old ch) (fun r h' => r = ((M.getLast?.map g.W).getD old, ch || decide (M ≠ [])) ∧ ∃ g', Sat g' h' ∧
      g'.K = g.K ∧ g'.W = g.W ∧ g'.fr = g.fr ∧ g'.U = g.U ∧ (∀ r, g'.R r = upd g.R (.var .cur) (some ep) r) ∧
      (∀ a, a ∉ q :: M → g'.N a = g.N a) ∧ (∀ a, a ∉ M → g'.P a = g.P a) ∧ (∀ a ∈ M, g'.P a = none) ∧
      (∀ a ∈ M, g'.N a = none ∨ g'.N a = some ep) ∧ (M ≠ [] → g'.N q = none) ∧ (M = [] → g'.N q = g.N q)) h := by
  intro M
  induction M with
  | nil =>
    intro fuel q g h old ch s hf hc he hep hnd hN hP
    cases fuel with
    | zero => simp at hf
    | succ f =>
      unfold insLoopP
      refine wp_bind (wp_get s (wp_bind (wp_get s ?_)))
      rw [hc, he]
      simp only [List.nil_append, List.head?_cons, if_true]
      refine wp_ret ⟨by simp, g, s, rfl, rfl, rfl, rfl, fun r => ?_, fun _ _ => rfl, fun _ _ => rfl, by simp, by simp,
        by simp, fun _ => rfl⟩
      by_cases e : r = .var .cur
      · subst e; simp [hc]
      · simp [upd, e]
  | cons m M ih =>
    intro fuel q g h old ch s hf hc he hep hnd hN hP
    cases fuel with
    | zero => simp at hf
    | succ f =>
      have hc' : g.R (.var .cur) = some m := by simpa using hc
      simp only [List.mem_cons, not_or] at hep
      have hqm : q ≠ m ∧ q ∉ M := by simpa using (List.nodup_cons.1 hnd).1
      have hmM : m ∉ M := (List.nodup_cons.1 (List.nodup_cons.1 hnd).2).1
      have hMn : M.Nodup := (List.nodup_cons.1 (List.nodup_cons.1 hnd).2).2
      have hlm : Live h m := s.live_root hc'
      rw [List.reverse_cons, path_append] at hP
      have hPm : g.P m = some q := by simpa using hP.2
      rw [path_cons] at hN
      unfold insLoopP
      refine wp_bind (wp_get s (wp_bind (wp_get s ?_)))
      rw [hc', he, if_neg (by simp [Ne.symm hep.2.1])]
      refine wp_bind (wp_nonnull rfl (wp_bind (wp_getPrev s hlm (wp_bind (wp_nonnull hPm (wp_bind ?_))))))
      refine wp_setNext s (s.live_prev hlm hPm) (by simp) fun h1 s1 => wp_bind ?_
      have hlm1 : Live h1 m := s1.live_root (r := .var .cur) hc'
      refine wp_setPrev s1 hlm1 (by simp) fun h2 s2 => ?_
      have hlm2 : Live h2 m := s2.live_root (r := .var .cur) hc'
      refine wp_bind (wp_getVal s2 hlm2 (wp_bind (wp_getNext s2 hlm2 (wp_bind ?_))))
      refine wp_assign s2 rfl (fun a ha => s2.live_next hlm2 ha) fun h3 s3 => ?_
      simp only [Pic.set] at s3
      have hNm : upd g.N q none m = (M ++ [ep]).head? := by
        rw [upd_ne _ _ (Ne.symm hqm.1), hN.1]
        cases M <;> simp
      rw [hNm] at s3
      refine wp_mono (ih f m _ h3 (g.W m) true s3 (by simp at hf; omega) (by simp) (by simpa [upd] using he)
        (by simp [hep.2.1, hep.2.2]) (List.nodup_cons.2 ⟨hmM, hMn⟩) ((path_upd hqm.2).2 hN.2)
        ((path_upd (by simpa using hmM)).2 (by simpa using hP.1))) ?_
      rintro r h' ⟨rfl, g', s', k1, k2, k3, k4, k5, k6, k7, k8, k9, k10, k11⟩
      refine ⟨?_, g', s', k1, k2, k3, k4, fun r => ?_, fun a ha => ?_, fun a ha => ?_, fun a ha => ?_, fun a ha => ?_,
        fun _ => ?_, by simp⟩
      · rcases nil_or_snoc M with rfl | ⟨M', l, rfl⟩
        · simp
        · have : (m :: (M' ++ [l])).getLast? = some l := by
            rw [← List.cons_append]; exact List.getLast?_concat ..
          simp [this]
      · rw [k5]; by_cases e : r = .var .cur <;> simp [upd, e]
      · simp only [List.mem_cons, not_or] at ha
        rw [k6 a (by simp [ha.2.1, ha.2.2])]
        exact upd_ne _ _ ha.1
      · simp only [List.mem_cons, not_or] at ha
        rw [k7 a ha.2]
        exact upd_ne _ _ ha.1
      · rcases List.mem_cons.1 ha with rfl | ha
        · rw [k7 a hmM]; simp
        · exact k8 a ha
      · rcases List.mem_cons.1 ha with rfl | ha
        · by_cases hM : M = []
          · subst hM; rw [k11 rfl]; right
            show upd g.N q none a = _
            simpa using hNm
          · left; exact k10 hM
        · exact k9 a ha
      · rw [k6 q (by simp [hqm.1, hqm.2])]
        simp

/-- In the picture `g` the leaves were `A ++ q :: (M ++ c :: C)`; in the memory `h'`, pictured by
`g'`, the leaves `M` have been unlinked and the new nodes `I` linked in their place. -/
structure Fin (g g' : Pic V) (h' : Heap V) (A M I C : List Nat) (q c : Nat) : Prop where
  sat : Sat g' h'
  N : ∀ a, a ∉ q :: (M ++ I) → g'.N a = g.N a
  Np : Path g'.N (q :: I) (some c)
  P : ∀ a, a ∉ c :: (M ++ I) → g'.P a = g.P a
  Pp : Path g'.P (c :: I.reverse) (some q)
  new : ∀ a ∈ I, g.fr ≤ a
  nodup : I.Nodup
  K : ∀ a, a ∉ q :: (M ++ I) → g'.K a = g.K a
  W : ∀ a, a ∉ q :: (M ++ I) → g'.W a = g.W a
  R : ∀ r, (∀ x, r ≠ .var x) → g'.R r = g.R r
  U : ∀ a, g'.U a → g.U a ∨ a ∈ I
  fr : g.fr ≤ g'.fr
  gone : ∃ rk : Nat → Nat, ∀ a ∈ M, ∀ b, g'.N a = some b ∨ g'.P a = some b → b ∈ (A ++ q :: (I ++ c :: C)) ∨ rk a < rk b

/-- Changing local variables. -/
theorem Fin.set {g g' : Pic V} {h' h'' : Heap V} {A M I C : List Nat} {q c : Nat} (f : Fin g g' h' A M I C q c) {x : Var}
    {v : Option Nat} (s : Sat (g'.set (.root (.var x)) v) h'') : Fin g (g'.set (.root (.var x)) v) h'' A M I C q c :=
  ⟨s, f.N, f.Np, f.P, f.Pp, f.new, f.nodup, f.K, f.W, fun r hr => by
    have := hr x
    simpa [Pic.set, upd, this] using f.R r hr, f.U, f.fr, f.gone⟩

/-- When no variable points to an unlinked leaf any more, these leaves are gone; unlinked leaves
that still are pointed to may be put aside in `X'`. -/
theorem Fin.toSt' {g0 g1 g g' : Pic V} {h h' : Heap V} {o : Nat} {A M I C : List Nat} {q c : Nat} {ls : List (Leaf V)}
    {X X' : Nat → Prop} {vs vs' : List Var} (f : Fin g g' h' A M I C q c) (env : Env g0 o X) (env' : Env g1 o X')
    (st : St g0 g h o (A ++ q :: (M ++ c :: C)) ls X vs)
    (hX' : ∀ a, X' a → X a ∨ a ∈ M)
    (h0 : ∀ a, X a → g1.N a = g0.N a ∧ g1.P a = g0.P a ∧ g1.K a = g0.K a ∧ g1.W a = g0.W a)
    (h1 : ∀ a, a ∈ M → X' a → g'.N a = g1.N a ∧ g'.P a = g1.P a ∧ g'.K a = g1.K a ∧ g'.W a = g1.W a)
    (hXX : ∀ a, X a → X' a)
    (hr : ∀ r, r ≠ .left o → r ≠ .right o → (∀ x, r ≠ .var x) → g1.R r = g0.R r) (hfr : g1.fr ≤ g'.fr)
    (vars : ∀ x a, g'.R (.var x) = some a → (a ∈ (A ++ q :: (I ++ c :: C)) ∨ X' a) ∧ x ∈ vs') :
    St g1 { g' with U := fun a => a ∈ (A ++ q :: (I ++ c :: C)) ∨ X' a } h' o (A ++ q :: (I ++ c :: C))
      ((A ++ q :: (I ++ c :: C)).map g'.D) X' vs' := by
  have hnd := st.nodup
  have hmem : ∀ a, a ∈ (A ++ q :: (M ++ c :: C)) ↔ a ∈ (A ++ q :: c :: C) ∨ a ∈ M := by
    intro a; simp; tauto
  have hmem' : ∀ a, a ∈ (A ++ q :: (I ++ c :: C)) ↔ a ∈ (A ++ q :: c :: C) ∨ a ∈ I := by
    intro a; simp; tauto
  have hperm : ∀ M : List Nat, (A ++ q :: (M ++ c :: C)).Perm (M ++ (A ++ q :: c :: C)) := by
    intro M
    have e1 : A ++ q :: (M ++ c :: C) = (A ++ [q]) ++ M ++ (c :: C) := by simp
    have e2 : M ++ (A ++ q :: c :: C) = M ++ (A ++ [q]) ++ (c :: C) := by simp
    rw [e1, e2]
    exact List.Perm.append_right _ List.perm_append_comm
  rw [(hperm M).nodup_iff, List.nodup_append] at hnd
  obtain ⟨_, hnd2, hMd⟩ := hnd
  have hI : ∀ a ∈ I, a ∉ (A ++ q :: (M ++ c :: C)) ∧ ¬ X a := fun a ha => by
    have := f.new a ha
    refine ⟨fun hm => ?_, fun hX => ?_⟩
    · have := st.lt hm; omega
    · have := env.lt a hX
      have := st.mono
      omega
  have hd : ∀ a ∈ (A ++ q :: c :: C), a ∉ M ++ I := fun a ha hm => by
    rcases List.mem_append.1 hm with hm | hm
    · exact hMd a hm a ha rfl
    · exact (hI a hm).1 ((hmem a).2 (.inl ha))
  have hn2 := hnd2
  simp only [List.nodup_append, List.nodup_cons, List.mem_cons, not_or] at hn2
  obtain ⟨_, ⟨⟨hqc, hqC⟩, hcC, _⟩, hAd⟩ := hn2
  have hqA : q ∉ A := fun h => hAd q h q (.inl rfl) rfl
  have hcA : c ∉ A := fun h => hAd c h c (.inr (.inl rfl)) rfl
  obtain ⟨rk, hM⟩ := f.gone
  refine St.build env' f.sat ?_ ?_ ?_ ?_ rfl ?_ ?_ vars ?_ ?_
    hfr rk ?_
  · rw [f.R _ (by simp), st.left]; cases A <;> simp
  · rw [f.R _ (by simp), st.right]; simp [List.getLast?_append, List.getLast?_cons]
  · have hp := st.fwd
    rw [path_append] at hp
    have hp2 := hp.2
    rw [path_cons, path_append] at hp2
    have e : A ++ q :: (I ++ c :: C) = A ++ ((q :: I) ++ c :: C) := by simp
    rw [e, path_append, path_append]
    refine ⟨(path_congr fun a ha => f.N a ?_).2 (by simpa using hp.1), by simpa using f.Np,
      (path_congr fun a ha => f.N a ?_).2 hp2.2.2⟩
    · rw [List.mem_cons, not_or]
      exact ⟨fun e => hqA (e ▸ ha), hd a (by simp [ha])⟩
    · rw [List.mem_cons, not_or]
      rw [List.mem_cons] at ha
      exact ⟨by rintro rfl; rcases ha with h | h; exacts [hqc h, hqC h], hd a (by simp; tauto)⟩
  · have hp := st.bwd
    have e1 : (A ++ q :: (M ++ c :: C)).reverse = C.reverse ++ c :: (M.reverse ++ q :: A.reverse) := by simp
    have e2 : (A ++ q :: (I ++ c :: C)).reverse = C.reverse ++ ((c :: I.reverse) ++ q :: A.reverse) := by simp
    rw [e1, path_append] at hp
    rw [e2, path_append, path_append]
    have hp2 := hp.2
    rw [path_cons, path_append] at hp2
    refine ⟨(path_congr fun a ha => f.P a ?_).2 (by simpa using hp.1), by simpa using f.Pp,
      (path_congr fun a ha => f.P a ?_).2 hp2.2.2⟩
    · rw [List.mem_reverse] at ha
      rw [List.mem_cons, not_or]
      exact ⟨fun e => hcC (e ▸ ha), hd a (by simp [ha])⟩
    · rw [List.mem_cons, List.mem_reverse] at ha
      rw [List.mem_cons, not_or]
      refine ⟨?_, hd a (by simp; tauto)⟩
      rintro rfl
      rcases ha with h | h
      · exact hqc h.symm
      · exact hcA h
  · rw [(hperm I).nodup_iff, List.nodup_append]
    refine ⟨f.nodup, hnd2, fun a ha b hb e => ?_⟩
    subst e
    exact (hI a ha).1 ((hmem a).2 (.inl hb))
  · intro a ha
    intro hXa
    rcases hX' a hXa with hXa | hXa
    · rcases (hmem' a).1 ha with h | h
      · exact st.disj a ((hmem a).2 (.inl h)) hXa
      · exact (hI a h).2 hXa
    · rcases (hmem' a).1 ha with h | h
      · exact hd a h (List.mem_append_left _ hXa)
      · exact (hI a h).1 ((hmem a).2 (.inr hXa))
  · intro r h1 h2 h3
    rw [f.R r h3, hr r h1 h2 h3]; exact st.roots r h1 h2 h3
  · intro a ha'
    by_cases haM : a ∈ M
    · exact h1 a haM ha'
    have ha : X a := (hX' a ha').resolve_right haM
    have hnI : a ∉ I := fun hm => (hI a hm).2 ha
    have h2 : a ∉ q :: (M ++ I) := fun hm => by
      simp only [List.mem_cons, List.mem_append] at hm
      rcases hm with h | h | h
      · exact st.disj a (by simp [h]) ha
      · exact st.disj a (by simp [h]) ha
      · exact hnI h
    have h3 : a ∉ c :: (M ++ I) := fun hm => by
      simp only [List.mem_cons, List.mem_append] at hm
      rcases hm with h | h | h
      · exact st.disj a (by simp [h]) ha
      · exact st.disj a (by simp [h]) ha
      · exact hnI h
    obtain ⟨f1, f2, f3, f4⟩ := st.frame a ha
    obtain ⟨e1, e2, e3, e4⟩ := h0 a ha
    exact ⟨by rw [f.N a h2, f1, e1], by rw [f.P a h3, f2, e2], by rw [f.K a h2, f3, e3], by rw [f.W a h2, f4, e4]⟩
  · intro a hUa hna hXa b hb
    rcases f.U a hUa with h | h
    · rcases st.U a h with h | h
      · rcases (hmem a).1 h with h | h
        · exact absurd ((hmem' a).2 (.inl h)) hna
        · rcases hM a h b hb with h | h
          · exact .inl (.inl h)
          · exact .inr h
      · exact absurd (hXX a h) hXa
    · exact absurd ((hmem' a).2 (.inr h)) hna

theorem Fin.toSt {g0 g g' : Pic V} {h h' : Heap V} {o : Nat} {A M I C : List Nat} {q c : Nat} {ls : List (Leaf V)}
    {X : Nat → Prop} {vs vs' : List Var} (f : Fin g g' h' A M I C q c) (env : Env g0 o X)
    (st : St g0 g h o (A ++ q :: (M ++ c :: C)) ls X vs)
    (vars : ∀ x a, g'.R (.var x) = some a → (a ∈ (A ++ q :: (I ++ c :: C)) ∨ X a) ∧ x ∈ vs') :
    St g0 { g' with U := fun a => a ∈ (A ++ q :: (I ++ c :: C)) ∨ X a } h' o (A ++ q :: (I ++ c :: C))
      ((A ++ q :: (I ++ c :: C)).map g'.D) X vs' :=
  f.toSt' env env st (fun _ h => .inl h) (fun _ _ => ⟨rfl, rfl, rfl, rfl⟩)
    (fun a ha hX => absurd hX (st.disj a (by simp [ha]))) (fun _ h => h) (fun _ _ _ _ => rfl)
    (Nat.le_trans st.mono f.fr) vars

theorem wp_disconnectAll {g : Pic V} {h : Heap V} (s : Sat g h) {a : Nat} (ha : Live h a)
    (ha' : ∀ h1, Sat { g with P := upd g.P a none } h1 → Live h1 a) {Q : Unit → Heap V → Prop}
    (q : ∀ h', Sat { g with P := upd g.P a none, N := upd g.N a none } h' → Q () h') :
    wp (disconnectAll (some a)) Q h := by
  unfold disconnectAll
  refine wp_bind (wp_setPrev s ha (by simp) fun h1 s1 => ?_)
  exact wp_setNext s1 (ha' h1 s1) (by simp) fun h2 s2 => q h2 s2

section
variable [DecidableEq V]

set_option maxHeartbeats 2000000 in
/-- The end-node part of `insert_to_pos`, after the loop. -/
theorem wp_insEndP {g0 g gl : Pic V} {h0 h : Heap V} {o : Nat} {A M B : List Nat} {q ep : Nat} {ls : List (Leaf V)}
    {X : Nat → Prop} {vs : List Var} (st : St g0 g h0 o (A ++ q :: (M ++ ep :: B)) ls X vs) (sl : Sat gl h)
    (lK : gl.K = g.K) (lW : gl.W = g.W) (lf : gl.fr = g.fr) (lU : gl.U = g.U)
    (lR : ∀ r, (∀ x, r ≠ .var x) → gl.R r = g.R r)
    (lN : ∀ a, a ∉ q :: M → gl.N a = g.N a) (lP : ∀ a, a ∉ M → gl.P a = g.P a) (lPM : ∀ a ∈ M, gl.P a = none)
    (lNM : ∀ a ∈ M, gl.N a = none ∨ gl.N a = some ep) (lq : M ≠ [] → gl.N q = none) (lq' : M = [] → gl.N q = g.N q)
    (hns : gl.R (.var .newStart) = some q) (hep : gl.R (.var .endPos) = some ep) (hnn : gl.R (.var .newNode) = none)
    (e : Int) (val old : V) (ch : Bool)
    (hch : M ≠ [] → ch = true) {Q : Bool → Heap V → Prop}
    (q1 : g.K ep = e → g.W ep = val → ∀ n B', B = n :: B' → ∀ g' h', Fin g g' h' A (M ++ [ep]) [] B' q n →
      (∀ a, g'.K a = g.K a ∧ g'.W a = g.W a) → (∀ x, g'.R (.var x) = gl.R (.var x)) → Q true h')
    (q2 : g.K ep = e ∧ (B = [] ∨ g.W ep ≠ val) ∨ g.K ep ≠ e ∧ old = val → ∀ g' h', Fin g g' h' A M [] B q ep →
      (∀ a, g'.K a = g.K a ∧ g'.W a = g.W a) → (∀ x, g'.R (.var x) = gl.R (.var x)) → Q ch h')
    (q3 : g.K ep ≠ e → old ≠ val → ∀ g' h', Fin g g' h' A M [g.fr] B q ep → g'.K g.fr = e → g'.W g.fr = old →
      (∀ a, a ≠ g.fr → g'.K a = g.K a ∧ g'.W a = g.W a) → (∀ x, g'.R (.var x) = gl.R (.var x)) → Q true h') :
    wp (insEndP e val old ch) Q h := by
  have hnd := st.nodup
  have hlep : Live h ep := sl.live_root hep
  have hlq : Live h q := sl.live_root hns
  have hne : q ∉ A ∧ q ∉ M ∧ q ≠ ep ∧ q ∉ B ∧ ep ∉ M ∧ ep ∉ A ∧ ep ∉ B := by
    simp only [List.nodup_append, List.nodup_cons, List.mem_append, List.mem_cons, not_or] at hnd
    obtain ⟨_, ⟨⟨a1, a2, a3⟩, _, ⟨a4, _⟩, a5⟩, a6⟩ := hnd
    exact ⟨fun h => a6 q h q (.inl rfl) rfl, a1, a2, a3, fun h => a5 ep h ep (.inl rfl) rfl,
      fun h => a6 ep h ep (.inr (.inr (.inl rfl))) rfl, a4⟩
  obtain ⟨hqA, hqM, hqe, hqB, heM, heA, heB⟩ := hne
  have hNep : gl.N ep = B.head? := by
    rw [lN ep (by simp [Ne.symm hqe, heM])]
    exact st.next_eq (A := A ++ q :: M) (by simp)
  have hNq0 : M = [] → gl.N q = some ep := fun hM => by
    rw [lq' hM, st.next_eq (A := A) rfl, hM]; simp
  have hNq1 : gl.N q = some ep ↔ M = [] := by
    constructor
    · intro hN
      by_contra hM
      rw [lq hM] at hN; simp at hN
    · exact hNq0
  have hfr : g.fr ∉ (A ++ q :: (M ++ ep :: B)) := st.fr_notin
  -- what all ways of linking `q` to `ep` have in common
  have fin2 : ∀ g' h', Sat g' h' → (∀ a, g'.N a = upd gl.N q (some ep) a) → (∀ a, g'.P a = upd gl.P ep (some q) a) →
      g'.K = gl.K → g'.W = gl.W → g'.R = gl.R → g'.U = gl.U → g'.fr = gl.fr → Fin g g' h' A M [] B q ep := by
    intro g' h' s' hN hP hK hW hR hU hf
    refine ⟨s', fun a ha => ?_, ?_, fun a ha => ?_, ?_, by simp, List.nodup_nil, fun a _ => by rw [hK, lK],
      fun a _ => by rw [hW, lW], fun r hr => by rw [hR, lR r hr], fun a ha => .inl (by rw [← lU, ← hU]; exact ha),
      Nat.le_of_eq (by rw [hf, lf]), fun _ => 0, fun a ha b hb => ?_⟩
    · simp only [List.append_nil, List.mem_cons, not_or] at ha
      rw [hN, upd_ne _ _ ha.1, lN a (by simp [ha])]
    · simp [hN]
    · simp only [List.append_nil, List.mem_cons, not_or] at ha
      rw [hP, upd_ne _ _ ha.1, lP a ha.2]
    · simp [hP]
    · have h1 : a ≠ q := fun e => hqM (e ▸ ha)
      have h2 : a ≠ ep := fun e => heM (e ▸ ha)
      rw [hN, upd_ne _ _ h1, hP, upd_ne _ _ h2, lPM a ha] at hb
      left
      rcases hb with hb | hb
      · rcases lNM a ha with h | h
        · rw [h] at hb; simp at hb
        · rw [h] at hb
          have : ep = b := by simpa using hb
          subst this; simp
      · simp at hb
  have fin2' : M = [] → Fin g gl h A M [] B q ep := by
    intro hM
    refine fin2 gl h sl (fun a => ?_) (fun a => ?_) rfl rfl rfl rfl rfl
    · by_cases e1 : a = q
      · subst e1; simp [hNq0 hM]
      · simp [upd, e1]
    · by_cases e1 : a = ep
      · subst e1
        have : gl.P a = some q := by
          rw [lP a heM, st.prev_eq (A := A ++ q :: M) (B := B) (by simp), hM]; simp
        simp [this]
      · simp [upd, e1]
  unfold insEndP
  refine wp_bind (wp_get sl (wp_bind (wp_nonnull hep (wp_bind (wp_get sl (wp_bind (wp_nonnull hns (wp_bind ?_))))))))
  refine wp_getKey sl hlep ?_
  rw [lK]
  by_cases hk : g.K ep = e
  · rw [if_pos hk]
    refine wp_bind (wp_getNext sl hlep (wp_bind (wp_getVal sl hlep ?_)))
    rw [hNep, lW]
    cases B with
    | nil =>
      rw [if_neg (by simp)]
      refine wp_bind (wp_getNext sl hlq ?_)
      by_cases hM : M = []
      · rw [if_neg (by simp [hNq1, hM])]
        exact wp_pure (q2 (.inl ⟨hk, .inl rfl⟩) gl h (fin2' hM) (fun a => by rw [lK, lW]; exact ⟨rfl, rfl⟩) fun _ => rfl)
      · rw [if_pos (by simp [hNq1, hM])]
        refine wp_bind (wp_setNext sl hlq (fun b hb => by cases hb; exact hlep) fun h1 s1 => wp_bind ?_)
        refine wp_setPrev s1 (s1.live_root (r := .var .endPos) hep)
          (fun b hb => by cases hb; exact s1.live_root (r := .var .newStart) hns) fun h2 s2 => wp_pure ?_
        rw [← hch hM]
        exact q2 (.inl ⟨hk, .inl rfl⟩) _ h2 (fin2 _ h2 s2 (fun _ => rfl) (fun _ => rfl) rfl rfl rfl rfl rfl)
            (fun a => ⟨by show gl.K a = _; rw [lK], by show gl.W a = _; rw [lW]⟩) fun _ => rfl
    | cons n B' =>
      by_cases hv : g.W ep = val
      · rw [if_pos (by simp [hv])]
        refine wp_bind (wp_getNext sl hlep (wp_bind ?_))
        rw [hNep]
        simp only [List.head?_cons]
        have hln : Live h n := sl.live_next hlep (by rw [hNep]; rfl)
        have hne' : n ≠ q ∧ n ≠ ep ∧ n ∉ M ∧ n ∉ A := by
          simp only [List.mem_cons, not_or] at hqB heB
          refine ⟨fun h => hqB.1 h.symm, fun h => heB.1 h.symm, fun h => ?_, fun h => ?_⟩
          · simp only [List.nodup_append, List.nodup_cons, List.mem_append, List.mem_cons] at hnd
            exact hnd.2.1.2.2.2 n h n (.inr (.inl rfl)) rfl
          · simp only [List.nodup_append, List.nodup_cons, List.mem_append, List.mem_cons] at hnd
            exact hnd.2.2 n h n (.inr (.inr (.inr (.inl rfl)))) rfl
        refine wp_setNext sl hlq (fun b hb => by cases hb; exact hln) fun h1 s1 => ?_
        have hlep1 : Live h1 ep := s1.live_root (r := .var .endPos) hep
        refine wp_bind (wp_getNext s1 hlep1 ?_)
        have hNep1 : upd gl.N q (some n) ep = some n := by
          rw [upd_ne _ _ (Ne.symm hqe), hNep]; rfl
        simp only [hNep1]
        refine wp_bind (wp_setPrev s1 (s1.live_next hlep1 hNep1)
          (fun b hb => by cases hb; exact s1.live_root (r := .var .newStart) hns) fun h2 s2 => wp_bind ?_)
        refine wp_disconnectAll s2 (s2.live_root (r := .var .endPos) hep)
          (fun h3 s3 => s3.live_root (r := .var .endPos) hep) fun h3 s3 => wp_pure ?_
        refine q1 hk hv n B' rfl _ h3 ⟨s3, fun a ha => ?_, ?_, fun a ha => ?_, ?_, by simp, List.nodup_nil,
          fun a _ => by show gl.K a = _; rw [lK], fun a _ => by show gl.W a = _; rw [lW], fun r hr => lR r hr,
          fun a ha => .inl (by rw [← lU]; exact ha), Nat.le_of_eq lf.symm,
          fun a => if a = ep then 1 else 0, fun a ha b hb => ?_⟩
          (fun a => ⟨by show gl.K a = _; rw [lK], by show gl.W a = _; rw [lW]⟩) fun _ => rfl
        · simp only [List.append_nil, List.mem_cons, List.mem_append, not_or, List.not_mem_nil, not_false_eq_true,
            and_true] at ha
          show upd (upd gl.N q (some n)) ep none a = _
          rw [upd_ne _ _ ha.2.2, upd_ne _ _ ha.1, lN a (by simp [ha])]
        · simp [upd, hqe]
        · simp only [List.append_nil, List.mem_cons, List.mem_append, not_or, List.not_mem_nil, not_false_eq_true,
            and_true] at ha
          show upd (upd gl.P n (some q)) ep none a = _
          rw [upd_ne _ _ ha.2.2, upd_ne _ _ ha.1, lP a ha.2.1]
        · simp [upd, hne'.2.1]
        · rcases List.mem_append.1 ha with ha | ha
          · have h1 : a ≠ q := fun e => hqM (e ▸ ha)
            have h2 : a ≠ ep := fun e => heM (e ▸ ha)
            have h3 : a ≠ n := fun e => hne'.2.2.1 (e ▸ ha)
            simp only [upd_ne _ _ h1, upd_ne _ _ h2, upd_ne _ _ h3, lPM a ha] at hb
            rcases hb with hb | hb
            · rcases lNM a ha with h | h
              · rw [h] at hb; simp at hb
              · rw [h] at hb
                have : ep = b := by simpa using hb
                subst this; right; simp [h2]
            · simp at hb
          · have : a = ep := by simpa using ha
            subst this
            simp at hb
      · rw [if_neg (by simp [hv])]
        refine wp_bind (wp_getNext sl hlq ?_)
        by_cases hM : M = []
        · rw [if_neg (by simp [hNq1, hM])]
          exact wp_pure (q2 (.inl ⟨hk, .inr hv⟩) gl h (fin2' hM) (fun a => by rw [lK, lW]; exact ⟨rfl, rfl⟩) fun _ => rfl)
        · rw [if_pos (by simp [hNq1, hM])]
          refine wp_bind (wp_setNext sl hlq (fun b hb => by cases hb; exact hlep) fun h1 s1 => wp_bind ?_)
          refine wp_setPrev s1 (s1.live_root (r := .var .endPos) hep)
            (fun b hb => by cases hb; exact s1.live_root (r := .var .newStart) hns) fun h2 s2 => wp_pure ?_
          rw [← hch hM]
          exact q2 (.inl ⟨hk, .inr hv⟩) _ h2 (fin2 _ h2 s2 (fun _ => rfl) (fun _ => rfl) rfl rfl rfl rfl rfl)
            (fun a => ⟨by show gl.K a = _; rw [lK], by show gl.W a = _; rw [lW]⟩) fun _ => rfl
  · rw [if_neg hk]
    by_cases hv : old = val
    · rw [if_pos hv]
      refine wp_bind (wp_getNext sl hlq ?_)
      by_cases hM : M = []
      · rw [if_neg (by simp [hNq1, hM])]
        exact wp_pure (q2 (.inr ⟨hk, hv⟩) gl h (fin2' hM) (fun a => by rw [lK, lW]; exact ⟨rfl, rfl⟩) fun _ => rfl)
      · rw [if_pos (by simp [hNq1, hM])]
        refine wp_bind (wp_linkNodes sl hns hep fun h1 s1 => wp_pure ?_)
        rw [← hch hM]
        exact q2 (.inr ⟨hk, hv⟩) _ h1 (fin2 _ h1 s1 (fun _ => rfl) (fun _ => rfl) rfl rfl rfl rfl rfl)
            (fun a => ⟨by show gl.K a = _; rw [lK], by show gl.W a = _; rw [lW]⟩) fun _ => rfl
    · rw [if_neg hv]
      refine wp_bind (wp_alloc sl fun h1 s1 => wp_bind ?_)
      refine wp_linkNodes s1 (a := q) (b := gl.fr) (by simp [Pic.new, upd, hns]) (by simp [Pic.new, upd])
        fun h2 s2 => wp_bind ?_
      refine wp_linkNodes s2 (a := gl.fr) (b := ep) (by simp [Pic.new, Pic.set, upd])
        (by simp [Pic.new, Pic.set, upd, hep]) fun h3 s3 => wp_bind ?_
      refine wp_assign s3 rfl (by simp) fun h4 s4 => wp_pure ?_
      simp only [Pic.set, Pic.new, lf] at s4
      have hf1 : q ≠ g.fr := fun e => hfr (by rw [← e]; simp)
      have hf2 : ep ≠ g.fr := fun e => hfr (by rw [← e]; simp)
      have hf3 : g.fr ∉ M := fun e => hfr (by simp [e])
      refine q3 hk hv _ h4 ⟨s4, fun a ha => ?_, ?_, fun a ha => ?_, ?_, by simp, by simp,
          fun a ha => ?_, fun a ha => ?_, fun r hr => ?_, fun a ha => ?_, by simp,
          fun _ => 0, fun a ha b hb => ?_⟩ (by simp) (by simp)
          (fun a ha => ⟨by show upd gl.K g.fr e a = _; rw [upd_ne _ _ ha, lK],
            by show upd gl.W g.fr old a = _; rw [upd_ne _ _ ha, lW]⟩) fun x => ?_
      · simp only [List.mem_cons, List.mem_append, not_or, List.not_mem_nil, not_false_eq_true, and_true] at ha
        show upd (upd (upd gl.N g.fr none) q (some g.fr)) g.fr (some ep) a = _
        rw [upd_ne _ _ ha.2.2, upd_ne _ _ ha.1, upd_ne _ _ ha.2.2, lN a (by simp [ha])]
      · simp [upd, hf1]
      · simp only [List.mem_cons, List.mem_append, not_or, List.not_mem_nil, not_false_eq_true, and_true] at ha
        show upd (upd (upd gl.P g.fr none) g.fr (some q)) ep (some g.fr) a = _
        rw [upd_ne _ _ ha.1, upd_ne _ _ ha.2.2, upd_ne _ _ ha.2.2, lP a ha.2.1]
      · simp [upd, Ne.symm hf2]
      · have : a ≠ g.fr := by simp at ha; exact ha.2.2
        show upd gl.K g.fr e a = _
        rw [upd_ne _ _ this, lK]
      · have : a ≠ g.fr := by simp at ha; exact ha.2.2
        show upd gl.W g.fr old a = _
        rw [upd_ne _ _ this, lW]
      · have := hr .newNode
        simpa [upd, this] using lR r hr
      · rcases ha with ha | ha
        · left; rw [← lU]; exact ha
        · right; simp [ha]
      · have h1 : a ≠ q := fun e => hqM (e ▸ ha)
        have h2 : a ≠ ep := fun e => heM (e ▸ ha)
        have h3 : a ≠ g.fr := fun e => hf3 (e ▸ ha)
        simp only [upd_ne _ _ h1, upd_ne _ _ h2, upd_ne _ _ h3, lPM a ha] at hb
        left
        rcases hb with hb | hb
        · rcases lNM a ha with h | h
          · rw [h] at hb; simp at hb
          · rw [h] at hb
            have : ep = b := by simpa using hb
            subst this; simp
        · simp at hb
      · by_cases e1 : x = .newNode
        · subst e1; simp [hnn]
        · simp [upd, e1]

end

end Mdds.FST.Mem
