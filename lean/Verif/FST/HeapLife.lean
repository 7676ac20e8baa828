import Verif.FST.HeapShift2

/-!
# Construction, destruction, clearing and copying in memory
-/
namespace Mdds.FST.Mem

variable {V : Type}

theorem wp_construct {g0 g : Pic V} {h : Heap V} {o : Nat} {X : Nat → Prop} (env : Env g0 o X)
    (st : St g0 g h o [] [] X []) (dv : V) (lo hi : Int) (init : V) :
    wp (construct o dv lo hi init) (fun _ h' => ∃ g' as', St g0 g' h' o as' [(lo, init), (hi, dv)] X []) h := by
  have hX0 : ∀ a, X a → a ≠ g.fr ∧ a ≠ g.fr + 1 := fun a ha => by
    have := env.lt a ha; have := st.mono; omega
  unfold construct
  refine wp_bind (wp_alloc st.sat fun h1 s1 => wp_bind (wp_alloc s1 fun h2 s2 => wp_bind ?_))
  have ra : ((g.new (.left o) lo init).new (.right o) hi dv).R (.left o) = some g.fr := by simp [Pic.new, upd]
  have rb : ((g.new (.left o) lo init).new (.right o) hi dv).R (.right o) = some (g.fr + 1) := by simp [Pic.new]
  have hfr1 : (g.new (.left o) lo init).fr = g.fr + 1 := rfl
  rw [hfr1]
  refine wp_setNext s2 (s2.live_root (r := .left o) ra) (fun b hb => by cases hb; exact s2.live_root (r := .right o) rb)
    fun h3 s3 => ?_
  refine wp_setPrev s3 (s3.live_root (r := .right o) rb) (fun b hb => by cases hb; exact s3.live_root (r := .left o) ra)
    fun h4 s4 => ?_
  simp only [Pic.new] at s4
  have stR := St.build (as := [g.fr, g.fr + 1]) (ls := [(lo, init), (hi, dv)]) (vs := []) env s4
    (by simp [upd]) (by simp) (by simp [upd]) (by simp [upd]) (by simp [Pic.D, upd]) (by simp)
    (fun a ha hx => by
      have := hX0 a hx
      simp at ha; omega)
    (fun x a e => by
      have := st.vars x a (by simpa [upd] using e)
      simp at this)
    (fun r h1 h2 h3 => by simpa [upd, h1, h2] using st.roots r h1 h2 h3)
    (fun a ha => by simpa [upd, hX0 a ha] using st.frame a ha)
    (by have := st.mono; simp; omega) (fun _ => 0)
    (fun a hU hn hx => by
      rcases hU with (hU | rfl) | rfl
      · rcases st.U a hU with h | h
        · simp at h
        · exact absurd h hx
      · simp at hn
      · simp at hn)
  exact ⟨_, _, stR⟩

/-! ## Disconnecting the leaves -/

theorem wp_disconnectLoop (o r : Nat) : ∀ (C : List Nat) (c : Nat) (g : Pic V) (h : Heap V) (n : Option Nat) (fuel : Nat),
    Sat g h → C.length < fuel → (c :: (C ++ [r])).Nodup → Path g.N (c :: (C ++ [r])) none →
    Path g.P (r :: (C.reverse ++ [c])) n → g.R (.right o) = some r →
    wp (disconnectLoop r fuel (some c)) (fun _ h' => ∃ g', Sat g' h' ∧
      (∀ a ∈ c :: C, g'.N a = none ∧ g'.P a = none) ∧ (∀ a, a ∉ c :: C → g'.N a = g.N a ∧ g'.P a = g.P a) ∧
      g'.K = g.K ∧ g'.W = g.W ∧ g'.R = g.R ∧ g'.U = g.U ∧ g'.fr = g.fr) h := by
  intro C
  induction C with
  | nil =>
    intro c g h n fuel s hf hnd hN hP hr
    cases fuel with
    | zero => simp at hf
    | succ f =>
      have hcr : c ≠ r := by simp at hnd; exact hnd
      have hPr : g.P r = some c := by simpa using hP.1
      have live : ∀ {g2 : Pic V} {h2 : Heap V}, Sat g2 h2 → g2.R = g.R → g2.P r = some c → Live h2 c :=
        fun s2 e1 e2 => s2.live_prev (s2.live_root (r := .right o) (by rw [e1, hr])) e2
      unfold disconnectLoop
      refine wp_bind (wp_nonnull rfl (wp_bind (wp_getNext s (live s rfl hPr) (wp_bind ?_))))
      refine wp_disconnectAll s (live s rfl hPr)
        (fun h1 s1 => live s1 rfl (by simp [upd, Ne.symm hcr, hPr])) fun h1 s1 => ?_
      have hNc : g.N c = some r := by simpa using hN.1
      rw [hNc, if_pos rfl]
      refine wp_ret ⟨_, s1, fun a ha => ?_, fun a ha => ?_, rfl, rfl, rfl, rfl, rfl⟩
      · have : a = c := by simpa using ha
        subst this; simp
      · have : a ≠ c := by simpa using ha
        simp [upd, this]
  | cons b C ih =>
    intro c g h n fuel s hf hnd hN hP hr
    cases fuel with
    | zero => simp at hf
    | succ f =>
      have hnd' := hnd
      simp only [List.cons_append, List.nodup_cons, List.mem_cons, List.mem_append, not_or] at hnd'
      obtain ⟨⟨hcb, hcC, hcr⟩, ⟨hbC, hbr⟩, hnd3⟩ := hnd'
      have hcr : c ≠ r := by simpa using hcr
      -- everything from the right leaf back to `c` is alive as long as the backward links are there
      have hbwd : ∀ {g2 : Pic V} {h2 : Heap V}, Sat g2 h2 → g2.R = g.R → (∀ a, a ≠ c → g2.P a = g.P a) → Live h2 c := by
        intro g2 h2 s2 e1 e2
        have hp : Path g2.P (r :: (C.reverse ++ [b])) (some c) := by
          have : Path g.P (r :: (C.reverse ++ [b]) ++ [c]) n := by simpa using hP
          rw [path_append] at this
          refine (path_congr fun a ha => e2 a ?_).2 (by simpa using this.1)
          intro e
          subst e
          simp at ha
          tauto
        have hlive : ∀ (as : List Nat) (n : Option Nat), Path g2.P as n → (∀ a, as.head? = some a → Live h2 a) →
            ∀ a ∈ as, Live h2 a := by
          intro as
          induction as with
          | nil => intro n _ _ a ha; simp at ha
          | cons x t ih =>
            intro n hp hh a ha
            rw [path_cons] at hp
            have hx := hh x rfl
            rcases List.mem_cons.1 ha with rfl | ha
            · exact hx
            · exact ih n hp.2 (fun b hb => s2.live_prev hx (by rw [hp.1, hb]; rfl)) a ha
        have hlb := hlive _ _ hp (fun a ha => by
          simp at ha; subst ha; exact s2.live_root (r := .right o) (by rw [e1, hr])) b (by simp)
        refine s2.live_prev hlb ?_
        rw [show r :: (C.reverse ++ [b]) = (r :: C.reverse) ++ [b] by simp, path_append] at hp
        simpa using hp.2
      unfold disconnectLoop
      refine wp_bind (wp_nonnull rfl (wp_bind (wp_getNext s (hbwd s rfl fun _ _ => rfl) (wp_bind ?_))))
      refine wp_disconnectAll s (hbwd s rfl fun _ _ => rfl)
        (fun h1 s1 => hbwd s1 rfl (fun a ha => by simp [upd, ha])) fun h1 s1 => ?_
      have hNc : g.N c = some b := by simpa using hN.1
      have hbr : b ≠ r := by simpa using hbr
      rw [hNc, if_neg (by simp [hbr])]
      have hcn : c ∉ b :: (C ++ [r]) := by simp [hcb, hcC, hcr]
      refine wp_mono (ih b _ h1 (some c) f s1 (by simp at hf; omega)
        (List.nodup_cons.1 hnd).2 ((path_upd hcn).2 (by simpa using hN.2)) ?_ hr) ?_
      · have : Path g.P (r :: (C.reverse ++ [b]) ++ [c]) n := by simpa using hP
        rw [path_append] at this
        refine (path_upd (fun e => hcn ?_)).2 (by simpa using this.1)
        simp at e ⊢; tauto
      · rintro _ h2 ⟨g2, s2, k1, k2, k3, k4, k5, k6, k7⟩
        refine ⟨g2, s2, fun a ha => ?_, fun a ha => ?_, k3, k4, k5, k6, k7⟩
        · by_cases hac : a ∈ b :: C
          · exact k1 a hac
          · have hac' : a = c := by
              rcases List.mem_cons.1 ha with h | h
              · exact h
              · exact absurd h hac
            subst hac'
            have := k2 a hac
            simpa using this
        · rw [List.mem_cons, not_or] at ha
          have := k2 a ha.2
          simpa [upd, ha.1] using this

/-- `destroy`: afterwards no leaf links to any other. -/
theorem wp_destroyLeaves {g0 g : Pic V} {h : Heap V} {o : Nat} {as : List Nat} {ls : List (Leaf V)} {X : Nat → Prop}
    {vs : List Var} (st : St g0 g h o as ls X vs) (hlen : as.length ≠ 1) {Q : Unit → Heap V → Prop}
    (q : ∀ g' h', Sat g' h' → (∀ a ∈ as, g'.N a = none ∧ g'.P a = none) → (∀ a, a ∉ as → g'.N a = g.N a ∧ g'.P a = g.P a) →
      g'.K = g.K → g'.W = g.W → g'.R = g.R → g'.U = g.U → g'.fr = g.fr → Q () h') : wp (destroyLeaves o) Q h := by
  unfold destroyLeaves
  refine wp_bind (wp_get st.sat (wp_bind (wp_get st.sat ?_)))
  rw [st.left, st.right]
  cases as with
  | nil => exact wp_ret (q g h st.sat (by simp) (fun _ _ => ⟨rfl, rfl⟩) rfl rfl rfl rfl rfl)
  | cons c T =>
    rcases nil_or_snoc T with rfl | ⟨C, r, rfl⟩
    · simp at hlen
    have e1 : (c :: (C ++ [r])).getLast? = some r := by simp [List.getLast?_append, List.getLast?_cons]
    rw [e1]
    show wp (disconnectLeaves (some c) (some r)) Q h
    unfold disconnectLeaves
    refine wp_bind (wp_loopBound st.sat (wp_bind ?_))
    have hll := st.length_le
    have hr : g.R (.right o) = some r := by rw [st.right, e1]
    refine wp_mono (wp_disconnectLoop o r C c g h none _ st.sat (by simp at hll; omega) st.nodup st.fwd
      (by simpa using st.bwd) hr) ?_
    rintro _ h1 ⟨g1, s1, k1, k2, k3, k4, k5, k6, k7⟩
    have hr1 : g1.R (.right o) = some r := by rw [k5, hr]
    refine wp_disconnectAll s1 (s1.live_root hr1) (fun h2 s2 => s2.live_root (r := .right o) hr1) fun h2 s2 => ?_
    refine q _ h2 s2 (fun a ha => ?_) (fun a ha => ?_) k3 k4 k5 k6 k7
    · by_cases e : a = r
      · subst e; simp
      · have : a ∈ c :: C := by simp [e] at ha; simp; exact ha
        simpa [upd, e] using k1 a this
    · have h1 : a ≠ r := fun e => ha (by simp [e])
      have h2 : a ∉ c :: C := fun e => ha (by simp at e ⊢; tauto)
      simpa [upd, h1] using k2 a h2

/-- The destructor: every leaf is deleted. -/
theorem wp_destruct {g0 g : Pic V} {h : Heap V} {o : Nat} {as : List Nat} {ls : List (Leaf V)} {X : Nat → Prop}
    (env : Env g0 o X) (st : St g0 g h o as ls X []) (hlen : as.length ≠ 1) :
    wp (destruct o) (fun _ h' => ∃ g', St g0 g' h' o [] [] X []) h := by
  unfold destruct
  refine wp_bind (wp_destroyLeaves st hlen fun g1 h1 s1 k1 k2 k3 k4 k5 k6 k7 => ?_)
  refine wp_bind (wp_assign s1 (l := .root (.right o)) rfl (by simp) fun h2 s2 => ?_)
  refine wp_assign s2 (l := .root (.left o)) rfl (by simp) fun h3 s3 => ?_
  simp only [Pic.set] at s3
  have stR := St.build (as := []) (ls := []) (vs := []) env s3
    (by simp) (by simp [upd]) (by simp) (by simp) (by simp) (by simp) (by simp)
    (fun x a e => by
      have := st.vars x a (by simpa [upd, k5] using e)
      simp at this)
    (fun r h1 h2 h3 => by simpa [upd, h1, h2, k5] using st.roots r h1 h2 h3)
    (fun a ha => by
      have := k2 a (fun e => st.disj a e ha)
      show g1.N a = _ ∧ g1.P a = _ ∧ g1.K a = _ ∧ g1.W a = _
      rw [this.1, this.2, k3, k4]; exact st.frame a ha)
    (by have := st.mono; show g0.fr ≤ g1.fr; rw [k7]; exact this) (fun _ => 0)
    (fun a hU _ hx b hb => by
      have hU : g.U a := by rw [← k6]; exact hU
      rcases st.U a hU with h | h
      · have := k1 a h
        rcases hb with hb | hb
        · exact absurd (this.1.symm.trans hb) (by simp)
        · exact absurd (this.2.symm.trans hb) (by simp)
      · exact absurd h hx)
  exact ⟨_, stR⟩

/-- `clear`: the two border leaves stay. -/
theorem wp_clearLeaves {g0 g : Pic V} {h : Heap V} {o : Nat} {l r : Nat} {M : List Nat} {ls : List (Leaf V)} {X : Nat → Prop}
    (env : Env g0 o X) (st : St g0 g h o (l :: (M ++ [r])) ls X []) (init : V) :
    wp (clearLeaves o init) (fun _ h' => ∃ g', St g0 g' h' o [l, r] [(g.K l, init), g.D r] X []) h := by
  have hl : g.R (.left o) = some l := st.left
  have hr : g.R (.right o) = some r := by rw [st.right]; simp [List.getLast?_append, List.getLast?_cons]
  have hlr : l ≠ r := by
    have := st.nodup
    simp at this; intro e; exact this.1.2 e
  unfold clearLeaves
  refine wp_bind (wp_get st.sat (wp_bind ?_))
  rw [hl]
  refine wp_setVar st (vs' := [.keepLeft]) (fun a ha => by cases ha; simp) (by simp) (by simp) fun h1 st1 => ?_
  refine wp_bind (wp_get st1.sat (wp_bind ?_))
  have hr1 : (g.set (.root (.var .keepLeft)) (some l)).R (.right o) = some r := by simp [Pic.set, upd, hr]
  rw [hr1]
  refine wp_setVar st1 (vs' := [.keepLeft, .keepRight]) (fun a ha => by cases ha; simp) (by simp) (by simp) fun h2 st2 => ?_
  simp only [Pic.set] at st2
  refine wp_bind (wp_destroyLeaves st2 (by simp) fun g3 h3 s3 k1 k2 k3 k4 k5 k6 k7 => wp_bind ?_)
  have hl3 : g3.R (.left o) = some l := by rw [k5]; simp [upd, hl]
  have hr3 : g3.R (.right o) = some r := by rw [k5]; simp [upd, hr]
  refine wp_linkNodes s3 hl3 hr3 fun h4 s4 => wp_bind (wp_get s4 (wp_bind (wp_nonnull hl3 (wp_bind ?_))))
  refine wp_setVal s4 (s4.live_root (r := .left o) hl3) fun h5 s5 => ?_
  unfold dropAll dropAll dropAll
  refine wp_bind (wp_assign s5 (l := .root (.var .keepRight)) rfl (by simp) fun h6 s6 => ?_)
  refine wp_bind (wp_assign s6 (l := .root (.var .keepLeft)) rfl (by simp) fun h7 s7 => wp_ret ?_)
  simp only [Pic.set] at s7
  have hK : g3.K = g.K := k3
  have hW : g3.W = g.W := k4
  have stR := St.build (as := [l, r]) (ls := [(g.K l, init), g.D r]) (vs := []) env s7
    (by simp [upd, hl3]) (by simp [upd, hr3])
    (by
      have := (k1 r (by simp)).1
      simp [upd, Ne.symm hlr, this])
    (by
      have := (k1 l (by simp)).2
      simp [upd, hlr, this])
    (by simp [Pic.D, upd, Ne.symm hlr, hK, hW]) (by simp [hlr])
    (fun a ha => st.disj a (by simp at ha ⊢; tauto))
    (fun x a e => by
      by_cases e1 : x = .keepLeft
      · subst e1; simp at e
      · by_cases e2 : x = .keepRight
        · subst e2; simp [upd] at e
        · have e : g3.R (.var x) = some a := by simpa [upd, e1, e2] using e
          rw [k5] at e
          have := st.vars x a (by simpa [upd, e1, e2] using e)
          simp at this)
    (fun q h1 h2 h3 => by
      have := h3 .keepLeft
      have := h3 .keepRight
      have : g3.R q = g.R q := by rw [k5]; simp [upd, *]
      simp only [upd]
      rw [if_neg (by assumption), if_neg (by assumption), this]
      exact st.roots q h1 h2 h3)
    (fun a ha => by
      have hn : a ∉ l :: (M ++ [r]) := fun e => st.disj a e ha
      have h1 : a ≠ l := fun e => hn (by simp [e])
      have h2 : a ≠ r := fun e => hn (by simp [e])
      have := k2 a hn
      have hf := st.frame a ha
      simp [upd, h1, h2, this, hK, hW, hf])
    (by have := st.mono; show g0.fr ≤ g3.fr; rw [k7]; exact this) (fun _ => 0)
    (fun a hU hn hx b hb => by
      have hU : g.U a := by rw [show g.U = g3.U from k6.symm]; exact hU
      have h1 : a ≠ l := fun e => hn (by simp [e])
      have h2 : a ≠ r := fun e => hn (by simp [e])
      rcases st.U a hU with h | h
      · have := k1 a h
        rcases hb with hb | hb
        · simp [upd, h1, this] at hb
        · simp [upd, h2, this] at hb
      · exact absurd h hx)
  exact ⟨_, stR⟩

end Mdds.FST.Mem
