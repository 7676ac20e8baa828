import Verif.FST.HeapLife

/-!
# The copy constructor in memory
-/
namespace Mdds.FST.Mem

variable {V : Type}

/-- A container under construction by the copy constructor: the leaves made so far; `dest_node`
is the last of them; the right border pointer is `rt`. -/
structure Cp (g0 g : Pic V) (h : Heap V) (o : Nat) (as : List Nat) (ls : List (Leaf V)) (X : Nat → Prop)
    (rt : Option Nat) : Prop where
  sat : Sat g h
  left : g.R (.left o) = as.head?
  right : g.R (.right o) = rt
  fwd : Path g.N as none
  bwd : Path g.P as.reverse none
  data : as.map g.D = ls
  nodup : as.Nodup
  lt : ∀ a ∈ as, a < g.fr
  disj : ∀ a ∈ as, ¬ X a
  dest : g.R (.var .dest) = as.getLast?
  vars : ∀ x, x ≠ .dest → g.R (.var x) = none
  roots : ∀ r, r ≠ .left o → r ≠ .right o → (∀ x, r ≠ .var x) → g.R r = g0.R r
  frame : ∀ a, X a → g.N a = g0.N a ∧ g.P a = g0.P a ∧ g.K a = g0.K a ∧ g.W a = g0.W a
  mono : g0.fr ≤ g.fr
  U : ∀ a, g.U a → a ∈ as ∨ X a

theorem wp_copyStep {g0 g : Pic V} {h : Heap V} {o : Nat} {X : Nat → Prop} (env : Env g0 o X) {A : List Nat} {d s t : Nat}
    {ls : List (Leaf V)} (cp : Cp g0 g h o (A ++ [d]) ls X none) (hsX0 : X s) (htX0 : X t) (hNs0 : g0.N s = some t)
    (hLs : Live h s) (hLt : Live h t) {Q : Nat × Nat → Heap V → Prop}
    (q : ∀ g' h', Cp g0 g' h' o (A ++ [d] ++ [g.fr]) (ls ++ [g0.D t]) X none → Q (t, g.fr) h') :
    wp (copyStep s) Q h := by
  have hd : g.R (.var .dest) = some d := by rw [cp.dest]; simp
  have hsX := hsX0
  have htX := htX0
  have hNs : g.N s = some t := by rw [(cp.frame s hsX).1]; exact hNs0
  have hKt : g.K t = g0.K t := (cp.frame t htX).2.2.1
  have hWt : g.W t = g0.W t := (cp.frame t htX).2.2.2
  have hfrA : g.fr ∉ A ++ [d] := fun e => Nat.lt_irrefl _ (cp.lt _ e)
  have hfrd : g.fr ≠ d := fun e => hfrA (by simp [e])
  have hfrX : ¬ X g.fr := fun e => by have := env.lt _ e; have := cp.mono; omega
  have hdA : d ∉ A := by
    have := cp.nodup
    rw [List.nodup_append] at this
    exact fun e => this.2.2 d e d (by simp) rfl
  unfold copyStep
  refine wp_bind (wp_getNext cp.sat hLs (wp_bind (wp_nonnull hNs ?_)))
  refine wp_bind (wp_getKey cp.sat hLt (wp_bind (wp_getVal cp.sat hLt ?_)))
  refine wp_bind (wp_alloc cp.sat fun h1 s1 => wp_bind (wp_get s1 (wp_bind ?_)))
  have hd1 : (g.new (.var .nxt) (g.K t) (g.W t)).R (.var .dest) = some d := by simp [Pic.new, upd, hd]
  refine wp_nonnull hd1 (wp_bind ?_)
  refine wp_moveTo s1 (l := .next d) (s1.live_root (r := .var .dest) hd1) (by simp) fun h2 s2 => wp_bind ?_
  simp only [Pic.set, Pic.new, upd_same] at s2
  have hd2 : upd (upd g.R (.var .nxt) (some g.fr)) (.var .nxt) none (.var .dest) = some d := by simp [upd, hd]
  refine wp_assign s2 (l := .root (.var .oldNode)) rfl
    (fun a ha => by cases ha; exact s2.live_root (r := .var .dest) hd2) fun h3 s3 => ?_
  simp only [Pic.set] at s3
  have hd3 : upd (upd (upd g.R (.var .nxt) (some g.fr)) (.var .nxt) none) (.var .oldNode) (some d) (.var .dest) = some d := by
    simp [upd, hd]
  have hld3 : Live h3 d := s3.live_root (r := .var .dest) hd3
  have hNd3 : upd (upd g.N g.fr none) d (some g.fr) d = some g.fr := by simp
  refine wp_bind (wp_getNext s3 hld3 (wp_bind ?_))
  refine wp_assign s3 (l := .root (.var .dest)) rfl
    (fun a ha => s3.live_next hld3 ha) fun h4 s4 => ?_
  simp only [Pic.set, hNd3] at s4
  refine wp_bind (wp_get s4 (wp_bind ?_))
  have hd4 : upd (upd (upd (upd g.R (.var .nxt) (some g.fr)) (.var .nxt) none) (.var .oldNode) (some d)) (.var .dest)
    (some g.fr) (.var .dest) = some g.fr := by simp
  refine wp_nonnull hd4 (wp_bind ?_)
  refine wp_moveTo s4 (l := .prev g.fr) (s4.live_root (r := .var .dest) hd4) (by simp) fun h5 s5 => ?_
  simp only [Pic.set] at s5
  -- the picture after one more leaf
  obtain ⟨g5, s5, hN, hP, hK, hW, hR, hU, hf⟩ : ∃ g5, Sat g5 h5 ∧ g5.N = upd (upd g.N g.fr none) d (some g.fr) ∧
      g5.P = upd (upd g.P g.fr none) g.fr (some d) ∧ g5.K = upd g.K g.fr (g.K t) ∧ g5.W = upd g.W g.fr (g.W t) ∧
      g5.R = upd g.R (.var .dest) (some g.fr) ∧ g5.U = (fun a => g.U a ∨ a = g.fr) ∧ g5.fr = g.fr + 1 := by
    refine ⟨_, s5, rfl, by simp [upd], rfl, rfl, ?_, rfl, rfl⟩
    funext q
    by_cases e1 : q = .var .oldNode
    · subst e1; simp [upd, cp.vars .oldNode (by simp)]
    · by_cases e2 : q = .var .nxt
      · subst e2; simp [upd, cp.vars .nxt (by simp)]
      · simp [upd, e1, e2]
  have cp5 : Cp g0 g5 h5 o (A ++ [d] ++ [g.fr]) (ls ++ [g0.D t]) X none := by
    refine ⟨s5, ?_, ?_, ?_, ?_, ?_, ?_, fun a ha => ?_, fun a ha => ?_, ?_, fun x hx => ?_, fun q h1 h2 h3 => ?_,
      fun a ha => ?_, ?_, fun a ha => ?_⟩
    · have := cp.left
      rw [hR]
      cases A <;> simpa [upd] using this
    · simpa [hR, upd] using cp.right
    · rw [hN, path_append]
      have hfw := cp.fwd
      rw [path_append] at hfw ⊢
      refine ⟨⟨(path_upd hdA).2 ((path_upd (fun e => hfrA (by simp [e]))).2 (by simpa using hfw.1)), by simp⟩, ?_⟩
      simp [upd, hfrd]
    · rw [hP, List.reverse_append, List.reverse_singleton, List.singleton_append, path_cons]
      refine ⟨by simp [upd], ?_⟩
      have hfr' : g.fr ∉ (A ++ [d]).reverse := by rw [List.mem_reverse]; exact hfrA
      exact (path_upd hfr').2 ((path_upd hfr').2 cp.bwd)
    · rw [List.map_append, ← cp.data]
      congr 1
      · refine List.map_congr_left fun a ha => ?_
        have : a ≠ g.fr := fun e => hfrA (e ▸ ha)
        simp [Pic.D, hK, hW, upd, this]
      · simp [Pic.D, hK, hW, hKt, hWt]
    · rw [List.nodup_append]
      exact ⟨cp.nodup, by simp, fun a ha b hb => by simp at hb; subst hb; exact fun e => hfrA (e ▸ ha)⟩
    · rw [hf]
      rcases List.mem_append.1 ha with ha | ha
      · have := cp.lt a ha; omega
      · have : a = g.fr := by simpa using ha
        omega
    · rcases List.mem_append.1 ha with ha | ha
      · exact cp.disj a ha
      · have : a = g.fr := by simpa using ha
        rw [this]; exact hfrX
    · simp [hR]
    · simpa [hR, upd, hx] using cp.vars x hx
    · have := h3 .dest
      simpa [hR, upd, this] using cp.roots q h1 h2 h3
    · have e1 : a ≠ g.fr := fun e => hfrX (e ▸ ha)
      have e2 : a ≠ d := fun e => cp.disj d (by simp) (e ▸ ha)
      simpa [hN, hP, hK, hW, upd, e1, e2] using cp.frame a ha
    · have := cp.mono; omega
    · rw [hU] at ha
      rcases ha with ha | rfl
      · rcases cp.U a ha with h | h
        · exact .inl (List.mem_append_left _ h)
        · exact .inr h
      · left; simp
  exact wp_pure (q _ h5 cp5)

theorem Cp.liveX {g0 g : Pic V} {h : Heap V} {o r : Nat} {as B : List Nat} {ls : List (Leaf V)} {X : Nat → Prop} {rt : Option Nat}
    (cp : Cp g0 g h o as ls X rt) (hor : o ≠ r) (hl : g0.R (.left r) = B.head?) (hp : Path g0.N B none)
    (hX : ∀ a ∈ B, X a) : ∀ a ∈ B, Live h a := by
  refine path_live cp.sat B none ((path_congr fun a ha => (cp.frame a (hX a ha)).1).2 hp) (fun a ha => ?_)
  have := cp.roots (.left r) (fun e => hor (Root.left.inj e).symm) (by simp) (by simp)
  exact cp.sat.live_root (r := .left r) (by rw [this, hl, ha])

theorem wp_copyLoop {g0 : Pic V} {o r : Nat} {X : Nat → Prop} (env : Env g0 o X) (hor : o ≠ r) {B : List Nat}
    (hl : g0.R (.left r) = B.head?) (hr : g0.R (.right r) = B.getLast?) (hp : Path g0.N B none) (hnd : B.Nodup)
    (hX : ∀ a ∈ B, X a) :
    ∀ (C : List Nat) (B1 : List Nat) (s t : Nat) (g : Pic V) (h : Heap V) (as : List Nat) (ls : List (Leaf V)) (fuel : Nat),
      B = B1 ++ s :: t :: C → Cp g0 g h o as ls X none → as ≠ [] → C.length < fuel →
      wp (copyLoop o r fuel s) (fun _ h' => ∃ g' as', Cp g0 g' h' o as' (ls ++ (t :: C).map g0.D) X as'.getLast?) h := by
  intro C
  induction C with
  | nil =>
    intro B1 s t g h as ls fuel hB cp hne hf
    cases fuel with
    | zero => simp at hf
    | succ f =>
      obtain ⟨A, d, rfl⟩ : ∃ A d, as = A ++ [d] := by
        rcases nil_or_snoc as with h | h
        · exact absurd h hne
        · exact h
      have hL := cp.liveX hor hl hp hX
      have hNs : g0.N s = some t := by
        have := hp; rw [hB, path_append] at this; simpa using this.2.1
      unfold copyLoop
      refine wp_bind (wp_copyStep env cp (hX s (by simp [hB])) (hX t (by simp [hB])) hNs (hL s (by simp [hB]))
        (hL t (by simp [hB])) fun g1 h1 cp1 => ?_)
      refine wp_bind (wp_get cp1.sat ?_)
      have hR := cp1.roots (.right r) (by simp) (fun e => hor (Root.right.inj e).symm) (by simp)
      rw [hR, hr, hB]
      rw [if_pos (by simp [List.getLast?_append, List.getLast?_cons])]
      refine wp_assign cp1.sat (l := .root (.right o)) rfl
        (fun a ha => by cases ha; exact cp1.sat.live_root (r := .var .dest) (by rw [cp1.dest]; simp)) fun h2 s2 => ?_
      have cp2 : Cp g0 (g1.set (.root (.right o)) (some g.fr)) h2 o (A ++ [d] ++ [g.fr]) (ls ++ [g0.D t]) X (some g.fr) := by
        refine ⟨s2, ?_, ?_, cp1.fwd, cp1.bwd, cp1.data, cp1.nodup, cp1.lt, cp1.disj, ?_, fun x hx => ?_,
          fun q h1 h2 h3 => ?_, cp1.frame, cp1.mono, cp1.U⟩
        · simpa [Pic.set, upd] using cp1.left
        · simp [Pic.set]
        · simpa [Pic.set, upd] using cp1.dest
        · simpa [Pic.set, upd] using cp1.vars x hx
        · simpa [Pic.set, upd, h2] using cp1.roots q h1 h2 h3
      exact ⟨_, A ++ [d] ++ [g.fr], by simpa using cp2⟩
  | cons u C ih =>
    intro B1 s t g h as ls fuel hB cp hne hf
    cases fuel with
    | zero => simp at hf
    | succ f =>
      obtain ⟨A, d, rfl⟩ : ∃ A d, as = A ++ [d] := by
        rcases nil_or_snoc as with h | h
        · exact absurd h hne
        · exact h
      have hL := cp.liveX hor hl hp hX
      have hNs : g0.N s = some t := by
        have := hp; rw [hB, path_append] at this; simpa using this.2.1
      unfold copyLoop
      refine wp_bind (wp_copyStep env cp (hX s (by simp [hB])) (hX t (by simp [hB])) hNs (hL s (by simp [hB]))
        (hL t (by simp [hB])) fun g1 h1 cp1 => ?_)
      refine wp_bind (wp_get cp1.sat ?_)
      have hR := cp1.roots (.right r) (by simp) (fun e => hor (Root.right.inj e).symm) (by simp)
      have htl : some t ≠ (u :: C).getLast? := by
        intro e
        have h1 := List.mem_of_getLast? e.symm
        have h2 := hnd
        rw [hB, List.nodup_append] at h2
        have := h2.2.1
        rw [List.nodup_cons, List.nodup_cons] at this
        exact this.2.1 h1
      rw [hR, hr, hB]
      rw [if_neg (by
        rw [List.getLast?_append, List.getLast?_cons_cons, List.getLast?_cons_cons]
        cases e : (u :: C).getLast? with
        | none => simp at e
        | some x => rw [e] at htl; simpa using htl)]
      refine wp_mono (ih (B1 ++ [s]) t u g1 h1 _ _ f (by simp [hB]) cp1 (by simp) (by simp at hf; omega)) ?_
      rintro _ h2 ⟨g2, as2, cp2⟩
      exact ⟨g2, as2, by simpa using cp2⟩

/-- The copy constructor: a new chain with the same keys and values. -/
theorem wp_copyConstruct {g0 g : Pic V} {h : Heap V} {o r : Nat} {X : Nat → Prop} (env : Env g0 o X)
    (st : St g0 g h o [] [] X []) (hor : o ≠ r) {B : List Nat}
    (hl : g0.R (.left r) = B.head?) (hr : g0.R (.right r) = B.getLast?) (hp : Path g0.N B none) (hnd : B.Nodup)
    (hX : ∀ a ∈ B, X a) (hB : 2 ≤ B.length) :
    wp (copyConstruct o r) (fun _ h' => ∃ g' as', St g0 g' h' o as' (B.map g0.D) X []) h := by
  obtain ⟨s, t, C, rfl⟩ : ∃ s t C, B = s :: t :: C := by
    cases B with
    | nil => simp at hB
    | cons s B => cases B with
      | nil => simp at hB
      | cons t C => exact ⟨s, t, C, rfl⟩
  have hsX := hX s (by simp)
  have hRl : g.R (.left r) = some s := by
    rw [st.roots (.left r) (fun e => hor (Root.left.inj e).symm) (by simp) (by simp), hl]; rfl
  have hfr := st.fr_notX env
  have hls : Live h s := st.sat.live_root hRl
  have hDs : g.K s = g0.K s ∧ g.W s = g0.W s := (st.frame s hsX).2.2
  have hvar : ∀ x, g.R (.var x) = none := fun x => by
    cases e : g.R (.var x) with
    | none => rfl
    | some a => have := (st.vars x a e).2; simp at this
  unfold copyConstruct
  refine wp_bind (wp_get st.sat (wp_bind (wp_nonnull hRl (wp_bind (wp_getKey st.sat hls (wp_bind ?_))))))
  refine wp_getVal st.sat hls (wp_bind (wp_alloc st.sat fun h1 s1 => wp_bind ?_))
  have hra : (g.new (.left o) (g.K s) (g.W s)).R (.left o) = some g.fr := by simp [Pic.new]
  refine wp_assign s1 (l := .root (.var .dest)) rfl (fun a ha => by cases ha; exact s1.live_root hra) fun h2 s2 => ?_
  simp only [Pic.set, Pic.new] at s2
  have cp : Cp g0 (Pic.set (g.new (.left o) (g.K s) (g.W s)) (.root (.var .dest)) (some g.fr)) h2 o [g.fr] [g0.D s] X none := by
    simp only [Pic.set, Pic.new]
    refine ⟨s2, by simp [upd], ?_, by simp, by simp, by simp [Pic.D, hDs], by simp, by simp, by simpa using hfr, by simp,
      fun x hx => ?_, fun q h1 h2 h3 => ?_, fun a ha => ?_, ?_, fun a ha => ?_⟩
    · simpa [upd] using st.right
    · simpa [upd, hx] using hvar x
    · simpa [upd, h1, h3 .dest] using st.roots q h1 h2 h3
    · have : a ≠ g.fr := fun e => hfr (e ▸ ha)
      simpa [upd, this] using st.frame a ha
    · have := st.mono; simp; omega
    · rcases ha with ha | rfl
      · rcases st.U a ha with h | h
        · simp at h
        · exact .inr h
      · left; simp
  refine wp_bind (wp_loopBound s2 (wp_bind ?_))
  refine wp_mono (wp_copyLoop env hor hl hr hp hnd hX C [] s t _ h2 _ _ _ rfl cp (by simp) ?_) ?_
  · have h1 : (s :: t :: C).length ≤ g.fr := length_le_of_lt hnd fun a ha => by
      have := env.lt a (hX a ha); have := st.mono; omega
    simp at h1 ⊢; omega
  · rintro _ h3 ⟨g3, as3, cp3⟩
    refine wp_assign cp3.sat (l := .root (.var .dest)) rfl (by simp) fun h4 s4 => ?_
    simp only [Pic.set] at s4
    have stR := St.build (as := as3) (ls := (s :: t :: C).map g0.D) (vs := []) env s4
      (by simpa [upd] using cp3.left) (by simpa [upd] using cp3.right) cp3.fwd cp3.bwd cp3.data cp3.nodup cp3.disj
      (fun x a e => by
        by_cases hx : x = .dest
        · subst hx; simp at e
        · have := cp3.vars x hx
          simp [upd, hx, this] at e)
      (fun q h1 h2 h3 => by simpa [upd, h3 .dest] using cp3.roots q h1 h2 h3)
      cp3.frame cp3.mono (fun _ => 0)
      (fun a hU hn hx => by
        rcases cp3.U a hU with h | h
        · exact absurd h hn
        · exact absurd h hx)
    exact ⟨_, _, stR⟩

end Mdds.FST.Mem
