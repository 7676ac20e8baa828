import Verif.SegTree.HeapShape

/-!
# The leaves of a segment tree in memory: creating, counting, deleting
-/
namespace Mdds.SegTree.Mem

open Mdds.FST.Mem

/-- All leaves of container `o` have been disconnected from each other. -/
structure Disc (g0 g : Pic Chain) (h : Heap Chain) (o : Nat) (X : Nat → Prop) : Prop where
  sat : Sat g h
  null : ∀ a, g.U a → ¬ X a → g.N a = none ∧ g.P a = none
  vars : ∀ x, g.R (.var x) = none
  roots : ∀ r, r ≠ .left o → r ≠ .right o → (∀ x, r ≠ .var x) → g.R r = g0.R r
  frame : ∀ a, X a → g.N a = g0.N a ∧ g.P a = g0.P a ∧ g.K a = g0.K a ∧ g.W a = g0.W a
  mono : g0.fr ≤ g.fr

theorem wp_disc {g0 g : Pic Chain} {h : Heap Chain} {o : Nat} {as : List Nat} {ls : List (Mdds.FST.Leaf Chain)} {X : Nat → Prop}
    (st : St g0 g h o as ls X []) (hlen : as.length ≠ 1) {Q : Unit → Heap Chain → Prop}
    (q : ∀ g' h', Disc g0 g' h' o X → Q () h') : wp (destroyLeaves o) Q h := by
  refine wp_destroyLeaves st hlen fun g1 h1 s1 k1 k2 k3 k4 k5 k6 k7 => q g1 h1 ?_
  refine ⟨s1, fun a hU hX => ?_, fun x => ?_, fun r h1 h2 h3 => ?_, fun a ha => ?_, by rw [k7]; exact st.mono⟩
  · rw [k6] at hU
    exact k1 a ((st.U a hU).resolve_right hX)
  · rw [k5]
    cases e : g.R (.var x) with
    | none => rfl
    | some a => have := (st.vars x a e).2; simp at this
  · rw [k5]; exact st.roots r h1 h2 h3
  · have := k2 a (fun e => st.disj a e ha)
    rw [this.1, this.2, k3, k4]; exact st.frame a ha

/-- Dropping the border pointers deletes all disconnected leaves. -/
theorem Disc.done {g0 g : Pic Chain} {h h3 : Heap Chain} {o : Nat} {X : Nat → Prop} (env : Env g0 o X) (d : Disc g0 g h o X)
    (s3 : Sat { g with R := upd (upd g.R (.left o) none) (.right o) none } h3) :
    ∃ g', St g0 g' h3 o [] [] X [] := by
  have stR := St.build (as := []) (ls := []) (vs := []) env s3
    (by simp [upd]) (by simp) (by simp) (by simp) (by simp) (by simp) (by simp)
    (fun x a e => by
      have : g.R (.var x) = some a := by simpa [upd] using e
      rw [d.vars] at this; cases this)
    (fun r h1 h2 h3 => by simpa [upd, h1, h2] using d.roots r h1 h2 h3)
    (fun a ha => d.frame a ha)
    d.mono (fun _ => 0)
    (fun a hU _ hx b hb => by
      have := d.null a hU hx
      rcases hb with hb | hb
      · exact absurd (this.1.symm.trans hb) (by simp)
      · exact absurd (this.2.symm.trans hb) (by simp))
  exact ⟨_, stR⟩

theorem wp_letGo {g0 g : Pic Chain} {h : Heap Chain} {o : Nat} {X : Nat → Prop} (env : Env g0 o X) (d : Disc g0 g h o X)
    {α : Type} {k : Prog Chain α} {Q : α → Heap Chain → Prop}
    (q : ∀ g' h', St g0 g' h' o [] [] X [] → wp k Q h') :
    wp (do assign (.root (.left o)) none; assign (.root (.right o)) none; k) Q h := by
  refine wp_bind (wp_assign d.sat (l := .root (.left o)) rfl (by simp) fun h2 s2 => ?_)
  refine wp_bind (wp_assign s2 (l := .root (.right o)) rfl (by simp) fun h3 s3 => ?_)
  simp only [Pic.set] at s3
  obtain ⟨g', st⟩ := d.done env s3
  exact q _ h3 st

/-- The picture after `appendBlank`. -/
def blank (g : Pic Chain) (c : Nat) : Pic Chain :=
  { N := upd (upd g.N g.fr none) c (some g.fr), P := upd g.P g.fr (some c), K := upd g.K g.fr 0, W := upd g.W g.fr none,
    R := upd (upd g.R (.var .oldNode) (some c)) (.var .dest) (some g.fr), U := fun a => g.U a ∨ a = g.fr, fr := g.fr + 1 }

theorem wp_appendBlank {g : Pic Chain} {h : Heap Chain} (s : Sat g h) {c : Nat} {r : Root} (hr : g.R r = some c)
    (hr1 : r ≠ .var .nxt) (hr2 : r ≠ .var .oldNode) (hn : g.R (.var .nxt) = none)
    {Q : Unit → Heap Chain → Prop} (q : ∀ h', Sat (blank g c) h' → Q () h') : wp (appendBlank c) Q h := by
  have hc : c ≠ g.fr := fun e => Nat.lt_irrefl _ (e ▸ s.lt_fr (s.live_root hr))
  unfold appendBlank
  refine wp_bind (wp_alloc s fun h1 s1 => wp_bind ?_)
  have e1 : (g.new (.var .nxt) 0 none).R r = some c := by simp [Pic.new, upd, hr1, hr]
  refine wp_moveTo s1 (l := .next c) (s1.live_root e1) (by simp) fun h2 s2 => wp_bind ?_
  simp only [Pic.set, Pic.new, upd_same] at s2
  have e2 : upd (upd g.R (.var .nxt) (some g.fr)) (.var .nxt) none r = some c := by simp [upd, hr1, hr]
  refine wp_assign s2 (l := .root (.var .oldNode)) rfl (fun a ha => by cases ha; exact s2.live_root e2) fun h3 s3 => ?_
  simp only [Pic.set] at s3
  have e3 : upd (upd (upd g.R (.var .nxt) (some g.fr)) (.var .nxt) none) (.var .oldNode) (some c) (.var .oldNode) = some c := by
    simp
  have hl3 : Live h3 c := s3.live_root (r := .var .oldNode) e3
  refine wp_bind (wp_getNext s3 hl3 (wp_bind ?_))
  refine wp_assign s3 (l := .root (.var .dest)) rfl (fun a ha => s3.live_next hl3 ha) fun h4 s4 => ?_
  simp only [Pic.set, upd_same] at s4
  refine wp_bind (wp_get s4 (wp_bind (wp_nonnull (a := g.fr) (by simp) (wp_bind (wp_get s4 ?_)))))
  refine wp_setPrev s4 (s4.live_root (r := .var .dest) (by simp)) (fun b hb => s4.live_root hb) fun h5 s5 => q h5 ?_
  convert s5 using 1
  unfold blank
  congr 1
  · funext a; by_cases e : a = g.fr <;> simp [upd, e]
  · funext r
    by_cases e1 : r = .var .dest
    · simp [upd, e1]
    · by_cases e2 : r = .var .oldNode
      · simp [upd, e2]
      · by_cases e3 : r = .var .nxt
        · subst e3; simp [upd, hn]
        · simp [upd, e1, e2, e3]

/-- In the middle of `create_leaf_node_instances`: the leaves `A`, then `p` (`prev_node`), have got
their keys `ks`; `c` (`cur_node`) comes after them. -/
structure Cr (g0 g : Pic Chain) (h : Heap Chain) (o : Nat) (A : List Nat) (p c : Nat) (ks : List Int) (X : Nat → Prop) : Prop where
  sat : Sat g h
  left : g.R (.left o) = (A ++ [p]).head?
  right : g.R (.right o) = none
  fwd : Mdds.FST.Mem.Path g.N (A ++ [p, c]) none
  bwd : Mdds.FST.Mem.Path g.P (c :: p :: A.reverse) none
  keys : (A ++ [p]).map g.K = ks
  vals : ∀ a ∈ A ++ [p, c], g.W a = none
  nodup : (A ++ [p, c]).Nodup
  lt : ∀ a ∈ A ++ [p, c], a < g.fr
  disj : ∀ a ∈ A ++ [p, c], ¬ X a
  old : g.R (.var .oldNode) = some p
  dest : g.R (.var .dest) = some c
  vars : ∀ x, x ≠ .dest → x ≠ .oldNode → g.R (.var x) = none
  roots : ∀ r, r ≠ .left o → r ≠ .right o → (∀ x, r ≠ .var x) → g.R r = g0.R r
  frame : ∀ a, X a → g.N a = g0.N a ∧ g.P a = g0.P a ∧ g.K a = g0.K a ∧ g.W a = g0.W a
  mono : g0.fr ≤ g.fr
  U : ∀ a, g.U a → a ∈ A ++ [p, c] ∨ X a

theorem wp_leafLoop {g0 : Pic Chain} {o : Nat} {X : Nat → Prop} (env : Env g0 o X) : ∀ (ks : List Int) {g : Pic Chain} {h : Heap Chain}
    {A : List Nat} {p c : Nat} {ks0 : List Int}, Cr g0 g h o A p c ks0 X →
    wp (leafLoop ks) (fun _ h' => ∃ g' A' p' c', Cr g0 g' h' o A' p' c' (ks0 ++ ks) X) h := by
  intro ks
  induction ks with
  | nil => intro g h A p c ks0 cr; exact wp_ret ⟨g, A, p, c, by simpa using cr⟩
  | cons k ks ih =>
    intro g h A p c ks0 cr
    unfold leafLoop
    refine wp_bind (wp_get cr.sat (wp_bind (wp_nonnull cr.dest (wp_bind ?_))))
    refine wp_setKey cr.sat (cr.sat.live_root cr.dest) fun h1 s1 => wp_bind ?_
    refine wp_appendBlank s1 (r := .var .dest) cr.dest (by simp) (by simp) (cr.vars _ (by simp) (by simp)) fun h2 s2 => ?_
    have hnd := cr.nodup
    have hcA : c ∉ A ++ [p] := by
      rw [show A ++ [p, c] = (A ++ [p]) ++ [c] by simp, List.nodup_append] at hnd
      exact fun e => hnd.2.2 c e c (by simp) rfl
    have hfr : g.fr ∉ A ++ [p, c] := fun e => Nat.lt_irrefl _ (cr.lt _ e)
    have hfrX : ¬ X g.fr := fun e => by have := env.lt _ e; have := cr.mono; omega
    have hcX : ¬ X c := cr.disj c (by simp)
    have hcf : c ≠ g.fr := fun e => hfr (by simp [← e])
    have cr' : Cr g0 (blank { g with K := upd g.K c k } c) h2 o (A ++ [p]) c g.fr (ks0 ++ [k]) X := by
      refine ⟨s2, ?_, ?_, ?_, ?_, ?_, fun a ha => ?_, ?_, fun a ha => ?_, fun a ha => ?_, ?_, ?_, fun x h1 h2 => ?_,
        fun r h1 h2 h3 => ?_, fun a ha => ?_, ?_, fun a ha => ?_⟩
      · have := cr.left
        simp only [blank]
        cases A <;> simpa [upd] using this
      · simpa [blank, upd] using cr.right
      · simp only [blank]
        have hf := cr.fwd
        rw [show A ++ [p, c] = (A ++ [p]) ++ [c] by simp, path_append] at hf
        rw [show (A ++ [p]) ++ [c, g.fr] = (A ++ [p]) ++ [c, g.fr] from rfl, path_append]
        refine ⟨(path_upd hcA).2 ((path_upd (fun e => hfr (by simp at e ⊢; tauto))).2 (by simpa using hf.1)), ?_⟩
        simp [upd, Ne.symm hcf]
      · simp only [blank]
        rw [path_cons]
        refine ⟨by simp, (path_upd (fun e => hfr ?_)).2 ?_⟩
        · simp at e ⊢; tauto
        · simpa using cr.bwd
      · simp only [blank]
        rw [List.map_append, ← cr.keys]
        congr 1
        · refine List.map_congr_left fun a ha => ?_
          have h1 : a ≠ g.fr := fun e => hfr (by rw [← e]; simp at ha ⊢; tauto)
          have h2 : a ≠ c := fun e => hcA (e ▸ ha)
          simp [upd, h1, h2]
        · simp [upd, hcf]
      · simp only [blank]
        by_cases e : a = g.fr
        · simp [e]
        · rw [upd_ne _ _ e]; exact cr.vals a (by simp at ha ⊢; tauto)
      · rw [show A ++ [p] ++ [c, g.fr] = A ++ [p, c] ++ [g.fr] by simp, List.nodup_append]
        exact ⟨hnd, by simp, fun a ha b hb => by simp at hb; subst hb; exact fun e => hfr (e ▸ ha)⟩
      · simp only [blank]
        by_cases e : a = g.fr
        · omega
        · have := cr.lt a (by simp at ha ⊢; tauto); omega
      · by_cases e : a = g.fr
        · rw [e]; exact hfrX
        · exact cr.disj a (by simp at ha ⊢; tauto)
      · simp [blank, upd]
      · simp [blank]
      · simpa [blank, upd, h1, h2] using cr.vars x h1 h2
      · have := h3 .dest
        have := h3 .oldNode
        simpa [blank, upd, *] using cr.roots r h1 h2 h3
      · have h1 : a ≠ g.fr := fun e => hfrX (e ▸ ha)
        have h2 : a ≠ c := fun e => hcX (e ▸ ha)
        simpa [blank, upd, h1, h2] using cr.frame a ha
      · have := cr.mono; simp only [blank]; omega
      · rcases ha with ha | rfl
        · rcases cr.U a ha with h | h
          · left; simp at h ⊢; tauto
          · exact .inr h
        · left; simp
    refine wp_mono (ih cr') ?_
    rintro _ h3 ⟨g3, A3, p3, c3, cr3⟩
    exact ⟨g3, A3, p3, c3, by simpa using cr3⟩

/-- `create_leaf_node_instances` in a container without leaves. -/
theorem wp_createRest {g0 g : Pic Chain} {h : Heap Chain} {o : Nat} {X : Nat → Prop} (env : Env g0 o X)
    (st : St g0 g h o [] [] X []) (k : Int) (ks : List Int) :
    wp (do
      let l ← Mdds.FST.Mem.alloc (.left o) k none
      appendBlank l
      leafLoop ks
      let p ← Mdds.FST.Mem.nonnull (← Mdds.FST.Mem.get (.var .oldNode))
      Mdds.FST.Mem.assign (.next p) none
      Mdds.FST.Mem.assign (.root (.right o)) (some p)
      Mdds.FST.Mem.dropAll [.dest, .oldNode] : Prog Chain Unit)
    (fun _ h' => ∃ g' as, St g0 g' h' o as ((k :: ks).map fun x => (x, none)) X []) h := by
  have hv : ∀ x, g.R (.var x) = none := fun x => by
    cases e : g.R (.var x) with
    | none => rfl
    | some a => have := (st.vars x a e).2; simp at this
  have hX0 : ∀ a, X a → a ≠ g.fr ∧ a ≠ g.fr + 1 := fun a ha => by
    have := env.lt a ha; have := st.mono; omega
  refine wp_bind (wp_alloc st.sat fun h1 s1 => wp_bind ?_)
  refine wp_appendBlank s1 (r := .left o) (by simp [Pic.new]) (by simp) (by simp) (by simp [Pic.new, upd, hv]) fun h2 s2 => ?_
  have hf1 : (g.new (.left o) k none).fr = g.fr + 1 := rfl
  have cr : Cr g0 (blank (g.new (.left o) k none) g.fr) h2 o [] g.fr (g.fr + 1) [k] X := by
    refine ⟨s2, ?_, ?_, ?_, ?_, ?_, fun a ha => ?_, ?_, fun a ha => ?_, fun a ha hx => ?_, ?_, ?_, fun x h1 h2 => ?_,
        fun r h1 h2 h3 => ?_, fun a ha => ?_, ?_, fun a ha => ?_⟩
    · simp [blank, Pic.new, upd]
    · have := st.right
      simp [blank, Pic.new, upd] at this ⊢; exact this
    · simp [blank, Pic.new, upd]
    · simp [blank, Pic.new, upd]
    · simp [blank, Pic.new, upd]
    · simp only [blank, Pic.new]
      rcases (by simpa using ha : a = g.fr ∨ a = g.fr + 1) with rfl | rfl <;> simp [upd]
    · simp
    · simp only [blank, Pic.new]
      rcases (by simpa using ha : a = g.fr ∨ a = g.fr + 1) with rfl | rfl <;> omega
    · have := hX0 a hx
      rcases (by simpa using ha : a = g.fr ∨ a = g.fr + 1) with h | h <;> omega
    · simp [blank, upd]
    · simp [blank, hf1]
    · simpa [blank, Pic.new, upd, h1, h2] using hv x
    · have := h3 .dest
      have := h3 .oldNode
      simpa [blank, Pic.new, upd, *] using st.roots r h1 h2 h3
    · have := hX0 a ha
      simpa [blank, Pic.new, upd, this] using st.frame a ha
    · have := st.mono; simp only [blank, Pic.new]; omega
    · rcases ha with (ha | rfl) | rfl
      · rcases st.U a ha with h | h
        · simp at h
        · exact .inr h
      · left; simp
      · left; simp [hf1]
  refine wp_bind (wp_mono (wp_leafLoop env ks cr) ?_)
  rintro _ h3 ⟨g3, A, p, c, cr⟩
  have hnd := cr.nodup
  have hcA : c ∉ A ++ [p] := by
    rw [show A ++ [p, c] = (A ++ [p]) ++ [c] by simp, List.nodup_append] at hnd
    exact fun e => hnd.2.2 c e c (by simp) rfl
  have hpA : p ∉ A := by
    rw [List.nodup_append] at hnd
    exact fun e => hnd.2.2 p e p (by simp) rfl
  have hpc : p ≠ c := fun e => hcA (by simp [e])
  refine wp_bind (wp_get cr.sat (wp_bind (wp_nonnull cr.old (wp_bind ?_))))
  refine wp_setNext cr.sat (cr.sat.live_root cr.old) (by simp) fun h4 s4 => wp_bind ?_
  refine wp_assign s4 (l := .root (.right o)) rfl
    (fun a ha => by cases ha; exact s4.live_root (r := .var .oldNode) cr.old) fun h5 s5 => ?_
  unfold dropAll dropAll dropAll
  refine wp_bind (wp_assign s5 (l := .root (.var .dest)) rfl (by simp) fun h6 s6 => ?_)
  refine wp_bind (wp_assign s6 (l := .root (.var .oldNode)) rfl (by simp) fun h7 s7 => wp_ret ?_)
  simp only [Pic.set] at s7
  have stR := St.build (as := A ++ [p]) (ls := (k :: ks).map fun x => (x, none)) (vs := []) env s7
    (by simpa [upd] using cr.left)
    (by simp [upd])
    (by
      have hf := cr.fwd
      rw [show A ++ [p, c] = A ++ ([p] ++ [c]) by simp, path_append] at hf
      rw [path_append]
      refine ⟨(path_upd hpA).2 (by simpa using hf.1), by simp⟩)
    (by simpa using cr.bwd.2)
    (by
      have e := cr.keys
      rw [show ([k] : List Int) ++ ks = k :: ks from rfl] at e
      rw [← e, List.map_map]
      refine List.map_congr_left fun a ha => ?_
      have := cr.vals a (by simp at ha ⊢; tauto)
      simp [Pic.D, this])
    (by rw [show A ++ [p, c] = (A ++ [p]) ++ [c] by simp, List.nodup_append] at hnd; exact hnd.1)
    (fun a ha => cr.disj a (by simp at ha ⊢; tauto))
    (fun x a e => by
      by_cases e1 : x = .oldNode
      · subst e1; simp at e
      · by_cases e2 : x = .dest
        · subst e2; simp [upd] at e
        · have : g3.R (.var x) = some a := by simpa [upd, e1, e2] using e
          rw [cr.vars x e2 e1] at this; cases this)
    (fun r h1 h2 h3 => by
      have := h3 .dest
      have := h3 .oldNode
      simpa [upd, *] using cr.roots r h1 h2 h3)
    (fun a ha => by
      have h1 : a ≠ p := fun e => cr.disj p (by simp) (e ▸ ha)
      simpa [upd, h1] using cr.frame a ha)
    cr.mono (fun _ => 0)
    (fun a hU hn hx b hb => by
      have hac : a = c := by
        rcases cr.U a hU with h | h
        · simp at h hn; tauto
        · exact absurd h hx
      subst hac
      left; left
      have hNc : g3.N a = none := by
        have hf := cr.fwd
        rw [show A ++ [p, a] = (A ++ [p]) ++ [a] by simp, path_append] at hf
        simpa using hf.2
      have hPc : g3.P a = some p := by simpa using cr.bwd.1
      rcases hb with hb | hb
      · simp [upd, Ne.symm hpc, hNc] at hb
      · rw [show g3.P a = _ from hb] at hPc
        simp at hPc; simp [hPc])
  exact ⟨_, _, stR⟩

theorem wp_createLeaves {g0 g : Pic Chain} {h : Heap Chain} {o : Nat} {X : Nat → Prop} (env : Env g0 o X)
    (d : Disc g0 g h o X) (keys : List Int) :
    wp (createLeaves o keys) (fun _ h' => ∃ g' as, St g0 g' h' o as (keys.map fun x => (x, none)) X []) h := by
  unfold createLeaves
  refine wp_letGo env d fun g1 h1 st => ?_
  cases keys with
  | nil => exact wp_ret ⟨g1, [], st⟩
  | cons k ks => exact wp_createRest env st k ks

/-! ## Counting -/

theorem wp_countLoop {L : Type} {g : Pic L} {h : Heap L} (s : Sat g h) (r : Nat) : ∀ (B : List Nat) (b : Nat) (fuel n : Nat),
    Mdds.FST.Mem.Path g.N (b :: B) none → (∀ a ∈ b :: B, Live h a) → (b :: B).Nodup → (b :: B).getLast? = some r → B.length < fuel →
    wp (countLoop (some r) fuel (some b) n) (fun c h' => c = n + B.length ∧ h' = h) h := by
  intro B
  induction B with
  | nil =>
    intro b fuel n _ _ _ hr hf
    cases fuel with
    | zero => simp at hf
    | succ f =>
      have : b = r := by simpa using hr
      subst this
      simp only [countLoop, if_pos]
      exact wp_ret ⟨rfl, rfl⟩
  | cons c B ih =>
    intro b fuel n hp hl hnd hr hf
    cases fuel with
    | zero => simp at hf
    | succ f =>
      have hr' : (c :: B).getLast? = some r := by simpa [List.getLast?_cons] using hr
      have hb : b ≠ r := fun e => by
        subst e
        exact (List.nodup_cons.1 hnd).1 (List.mem_of_getLast? hr')
      simp only [countLoop]
      rw [if_neg (by simp [hb])]
      refine wp_bind (wp_nonnull rfl (wp_bind (wp_getNext s (hl b (by simp)) ?_)))
      have hN : g.N b = some c := by simpa using hp.1
      rw [hN]
      refine wp_mono (ih c f (n + 1) hp.2 (fun a ha => hl a (by simp [ha])) (List.nodup_cons.1 hnd).2 hr'
        (by simp at hf; omega)) ?_
      rintro x h' ⟨rfl, rfl⟩
      exact ⟨by simp; omega, rfl⟩

theorem wp_countLeaves {L : Type} {g0 g : Pic L} {h : Heap L} {o : Nat} {as : List Nat} {ls : List (Mdds.FST.Leaf L)} {X : Nat → Prop}
    {vs : List Var} (st : St g0 g h o as ls X vs) {Q : Nat → Heap L → Prop}
    (q : Q (if as = [] then 1 else as.length) h) : wp (countLeaves o) Q h := by
  unfold countLeaves
  refine wp_bind (wp_get st.sat (wp_bind (wp_loopBound st.sat (wp_bind (wp_get st.sat ?_)))))
  rw [st.left, st.right]
  have hlen := st.length_le
  cases as with
  | nil =>
    simp only [countLoop]
    rw [if_pos (by simp)]
    exact wp_ret (by simpa using q)
  | cons b B =>
    obtain ⟨r, hr⟩ : ∃ r, (b :: B).getLast? = some r := by
      cases e : (b :: B).getLast? with
      | none => simp at e
      | some r => exact ⟨r, rfl⟩
    rw [hr]
    refine wp_mono (wp_countLoop st.sat r B b _ 1 st.fwd (fun a ha => st.live ha) st.nodup hr (by simp at hlen; omega)) ?_
    rintro c h' ⟨rfl, rfl⟩
    simpa [Nat.add_comm] using q

end Mdds.SegTree.Mem
