import Verif.FST.HeapCopy
import Verif.FST.HeapQuiet

/-!
# Many containers in one memory
-/
namespace Mdds.FST.Mem

variable {V : Type}

/-- In memory `h`, pictured by `g`, every container `o` has its leaves at the addresses `C o`;
there is nothing else, and no function is active. -/
structure Wld (g : Pic V) (h : Heap V) (C : Nat → List Nat) : Prop where
  sat : Sat g h
  left : ∀ o, g.R (.left o) = (C o).head?
  right : ∀ o, g.R (.right o) = (C o).getLast?
  fwd : ∀ o, Path g.N (C o) none
  bwd : ∀ o, Path g.P (C o).reverse none
  nodup : ∀ o, (C o).Nodup
  disj : ∀ o p, o ≠ p → ∀ a ∈ C o, a ∉ C p
  vars : ∀ x, g.R (.var x) = none
  U : ∀ a, g.U a → ∃ o, a ∈ C o

namespace Wld

variable {g : Pic V} {h : Heap V} {C : Nat → List Nat}

theorem live (w : Wld g h C) {o a : Nat} (ha : a ∈ C o) : Live h a :=
  path_live w.sat (C o) none (w.fwd o) (fun b hb => w.sat.live_root (r := .left o) (by rw [w.left, hb])) a ha

theorem env (w : Wld g h C) (o : Nat) : Env g o (fun a => ∃ p, p ≠ o ∧ a ∈ C p) := by
  refine ⟨?_, ?_, ?_, w.vars, ?_⟩
  · rintro a b ⟨p, hp, ha⟩ e
    exact ⟨p, hp, path_closed (w.fwd p) ha e⟩
  · rintro a b ⟨p, hp, ha⟩ e
    exact ⟨p, hp, by simpa using path_closed (w.bwd p) (List.mem_reverse.2 ha) e⟩
  · intro r a h1 h2 e
    cases r with
    | left p => exact ⟨p, fun e => h1 (e ▸ rfl), List.mem_of_mem_head? (by rw [← w.left p, e]; rfl)⟩
    | right p => exact ⟨p, fun e => h2 (e ▸ rfl), List.mem_of_getLast? (by rw [← w.right p, e])⟩
    | var x => rw [w.vars] at e; cases e
  · rintro a ⟨p, hp, ha⟩
    exact w.sat.lt_fr (w.live ha)

theorem st (w : Wld g h C) (o : Nat) : St g g h o (C o) ((C o).map g.D) (fun a => ∃ p, p ≠ o ∧ a ∈ C p) [] := by
  refine ⟨w.sat, w.left o, w.right o, w.fwd o, w.bwd o, rfl, w.nodup o, ?_, ?_, fun _ _ _ _ => rfl,
    fun _ _ => ⟨rfl, rfl, rfl, rfl⟩, Nat.le_refl _, ?_⟩
  · rintro a ha ⟨p, hp, ha'⟩
    exact w.disj o p (Ne.symm hp) a ha ha'
  · intro x a e; rw [w.vars] at e; cases e
  · intro a hU
    obtain ⟨p, hp⟩ := w.U a hU
    by_cases e : p = o
    · exact .inl (e ▸ hp)
    · exact .inr ⟨p, e, hp⟩

/-- The world after one container has changed. -/
theorem put (w : Wld g h C) {o : Nat} {g' : Pic V} {h' : Heap V} {as : List Nat} {ls : List (Leaf V)}
    (st : St g g' h' o as ls (fun a => ∃ p, p ≠ o ∧ a ∈ C p) []) :
    Wld g' h' (upd C o as) ∧ as.map g'.D = ls ∧ ∀ p, p ≠ o → (C p).map g'.D = (C p).map g.D := by
  have hX : ∀ {p : Nat}, p ≠ o → ∀ {a : Nat}, a ∈ C p → g'.N a = g.N a ∧ g'.P a = g.P a ∧ g'.K a = g.K a ∧ g'.W a = g.W a :=
    fun hp _ ha => st.frame _ ⟨_, hp, ha⟩
  refine ⟨⟨st.sat, fun p => ?_, fun p => ?_, fun p => ?_, fun p => ?_, fun p => ?_, fun p q hpq a ha => ?_, fun x => ?_,
    fun a hU => ?_⟩, st.data, fun p hp => ?_⟩
  · by_cases e : p = o
    · subst e; simpa using st.left
    · rw [upd_ne _ _ e, st.roots _ (by simp [e]) (by simp) (by simp), w.left]
  · by_cases e : p = o
    · subst e; simpa using st.right
    · rw [upd_ne _ _ e, st.roots _ (by simp) (by simp [e]) (by simp), w.right]
  · by_cases e : p = o
    · subst e; simpa using st.fwd
    · rw [upd_ne _ _ e]
      exact (path_congr fun a ha => (hX e ha).1).2 (w.fwd p)
  · by_cases e : p = o
    · subst e; simpa using st.bwd
    · rw [upd_ne _ _ e]
      exact (path_congr fun a ha => (hX e (List.mem_reverse.1 ha)).2.1).2 (w.bwd p)
  · by_cases e : p = o
    · subst e; simpa using st.nodup
    · rw [upd_ne _ _ e]; exact w.nodup p
  · by_cases e : p = o
    · subst e
      rw [upd_same] at ha
      rw [upd_ne _ _ (Ne.symm hpq)]
      exact fun hq => st.disj a ha ⟨q, Ne.symm hpq, hq⟩
    · rw [upd_ne _ _ e] at ha
      by_cases e2 : q = o
      · subst e2
        rw [upd_same]
        exact fun hq => st.disj a hq ⟨p, e, ha⟩
      · rw [upd_ne _ _ e2]; exact w.disj p q hpq a ha
  · cases e : g'.R (.var x) with
    | none => rfl
    | some a => have := (st.vars x a e).2; simp at this
  · rcases st.U a hU with h | ⟨p, hp, h⟩
    · exact ⟨o, by simpa using h⟩
    · exact ⟨p, by rw [upd_ne _ _ hp]; exact h⟩
  · exact map_D_congr (fun a ha => (hX hp ha).2.2.1) (fun a ha => (hX hp ha).2.2.2)

end Wld

/-- The key stored in a node. -/
def keyAt (h : Heap V) (a : Nat) : Option Int := (h.node a).map (·.key)

theorem Wld.keyAt {g : Pic V} {h : Heap V} {C : Nat → List Nat} (w : Wld g h C) {o a : Nat} (ha : a ∈ C o) :
    keyAt h a = some (g.K a) := by
  obtain ⟨n, hn⟩ := Option.isSome_iff_exists.1 (w.live ha)
  simp [Mem.keyAt, hn, (w.sat.node a n hn).2.2.1]

/-- Every container has its leaves at the addresses `C o`; they hold `L o`. -/
def WldC (h : Heap V) (C : Nat → List Nat) (L : Nat → List (Leaf V)) : Prop :=
  ∃ g, Wld g h C ∧ ∀ o, (C o).map g.D = L o

/-- Container `p` now has the very nodes that container `f p` had, with the same keys. -/
def Mv (f : Nat → Option Nat) (h : Heap V) (C : Nat → List Nat) (h' : Heap V) (C' : Nat → List Nat) : Prop :=
  ∀ p q, f p = some q → C' p = C q ∧ ∀ a ∈ C q, keyAt h' a = keyAt h a

theorem Mv.comp {f f' : Nat → Option Nat} {h h' h'' : Heap V} {C C' C'' : Nat → List Nat} (m : Mv f h C h' C')
    (m' : Mv f' h' C' h'' C'') : Mv (fun p => (f' p).bind f) h C h'' C'' := by
  intro p q e
  obtain ⟨r, e1, e2⟩ := Option.bind_eq_some_iff.1 e
  obtain ⟨c1, k1⟩ := m' p r e1
  obtain ⟨c2, k2⟩ := m r q e2
  exact ⟨c1.trans c2, fun a ha => (k1 a (by rw [c2]; exact ha)).trans (k2 a ha)⟩

theorem Mv.weaken {f f' : Nat → Option Nat} {h h' : Heap V} {C C' : Nat → List Nat} (m : Mv f h C h' C')
    (hf : ∀ p q, f' p = some q → f p = some q) : Mv f' h C h' C' := fun p q e => m p q (hf p q e)

/-- All containers and the history of their nodes. -/
def WldM (f : Nat → Option Nat) (h : Heap V) (C : Nat → List Nat) (h' : Heap V) (L : Nat → List (Leaf V)) : Prop :=
  ∃ C', WldC h' C' L ∧ Mv f h C h' C'

/-- A call that concerns one container. -/
theorem WldC.one {α : Type} {h : Heap V} {C : Nat → List Nat} {L : Nat → List (Leaf V)} (w : WldC h C L) (o : Nat) {p : Prog V α}
    {ls : List (Leaf V)} {R : α → Prop}
    (k : ∀ g as X, Env g o X → St g g h o as (L o) X [] →
      (∀ r, r ≠ o → ∃ B, g.R (.left r) = B.head? ∧ g.R (.right r) = B.getLast? ∧ Path g.N B none ∧ B.Nodup ∧
        (∀ a ∈ B, X a) ∧ B.map g.D = L r) →
      wp p (fun a h' => R a ∧ ∃ g' as', St g g' h' o as' ls X []) h) :
    wp p (fun a h' => R a ∧ WldM (off o) h C h' (upd L o ls)) h := by
  obtain ⟨g, w, hL⟩ := w
  have st := w.st o
  rw [hL o] at st
  refine wp_mono (k g (C o) _ (w.env o) st (fun r hr => ⟨C r, w.left r, w.right r, w.fwd r, w.nodup r,
    fun a ha => ⟨r, hr, ha⟩, hL r⟩)) ?_
  rintro a h' ⟨hR, g', as', st'⟩
  obtain ⟨w', e1, e2⟩ := w.put st'
  refine ⟨hR, upd C o as', ⟨g', w', fun p => ?_⟩, fun p q e => ?_⟩
  · by_cases e : p = o
    · subst e; simpa using e1
    · rw [upd_ne _ _ e, upd_ne _ _ e, e2 p e, hL]
  · simp only [off] at e
    by_cases hp : p = o
    · simp [hp] at e
    · simp only [if_neg hp, Option.some.injEq] at e
      subst e
      refine ⟨upd_ne _ _ hp, fun a ha => ?_⟩
      rw [w'.keyAt (o := p) (by rw [upd_ne _ _ hp]; exact ha), w.keyAt ha, (st'.frame a ⟨p, hp, ha⟩).2.2.1]

theorem wl_construct {h : Heap V} {C : Nat → List Nat} {L : Nat → List (Leaf V)} (w : WldC h C L) {o : Nat} (ho : L o = []) (dv : V) (lo hi : Int)
    (init : V) : wp (construct o dv lo hi init) (fun _ h' => WldM (off o) h C h' (upd L o [(lo, init), (hi, dv)])) h := by
  refine wp_mono (w.one o (R := fun _ => True) fun g as X env st _ => ?_) fun _ _ h => h.2
  rw [ho] at st
  have : as = [] := by have := st.data; simpa using this
  subst this
  exact wp_mono (wp_construct env st dv lo hi init) fun _ _ h => ⟨trivial, h⟩

theorem St.len {g0 g : Pic V} {h : Heap V} {o : Nat} {as : List Nat} {ls : List (Leaf V)} {X : Nat → Prop} {vs : List Var}
    (st : St g0 g h o as ls X vs) : as.length = ls.length := by rw [← st.data, List.length_map]

theorem wl_destruct {h : Heap V} {C : Nat → List Nat} {L : Nat → List (Leaf V)} (w : WldC h C L) {o : Nat} (ho : (L o).length ≠ 1) :
    wp (destruct o) (fun _ h' => WldM (off o) h C h' (upd L o [])) h := by
  refine wp_mono (w.one o (R := fun _ => True) fun g as X env st _ => ?_) fun _ _ h => h.2
  exact wp_mono (wp_destruct env st (by rw [st.len]; exact ho)) fun _ _ ⟨g', h⟩ => ⟨trivial, g', [], h⟩

theorem wl_clear {h : Heap V} {C : Nat → List Nat} {L : Nat → List (Leaf V)} (w : WldC h C L) {o : Nat} {iv : V} {ls : List (Leaf V)}
    (hm : clearList (L o) iv = .ok ls) : wp (clearLeaves o iv) (fun _ h' => WldM (off o) h C h' (upd L o ls)) h := by
  refine wp_mono (w.one o (R := fun _ => True) fun g as X env st _ => ?_) fun _ _ h => h.2
  unfold clearList at hm
  by_cases hl : (L o).length < 2
  · rw [if_pos hl] at hm; cases hm
  · rw [if_neg hl, ← st.data] at hm
    rw [← st.len] at hl
    obtain ⟨l, M, r, rfl⟩ : ∃ l M r, as = l :: (M ++ [r]) := by
      cases as with
      | nil => simp at hl
      | cons l T =>
        rcases nil_or_snoc T with rfl | ⟨M, r, rfl⟩
        · simp at hl
        · exact ⟨l, M, r, rfl⟩
    have e : ls = [(g.K l, iv), g.D r] := by
      simp [List.getLast?_append, List.getLast?_cons, Pic.D] at hm
      simp [← hm, Pic.D]
    subst e
    exact wp_mono (wp_clearLeaves env st iv) fun _ _ ⟨g', h⟩ => ⟨trivial, g', _, h⟩

theorem wl_copy {h : Heap V} {C : Nat → List Nat} {L : Nat → List (Leaf V)} (w : WldC h C L) {o r : Nat} (ho : L o = []) (hor : o ≠ r)
    (hr : 2 ≤ (L r).length) : wp (copyConstruct o r) (fun _ h' => WldM (off o) h C h' (upd L o (L r))) h := by
  refine wp_mono (w.one o (R := fun _ => True) fun g as X env st other => ?_) fun _ _ h => h.2
  rw [ho] at st
  have : as = [] := by have := st.data; simpa using this
  subst this
  obtain ⟨B, b1, b2, b3, b4, b5, b6⟩ := other r (Ne.symm hor)
  have hB : 2 ≤ B.length := by rw [← b6, List.length_map] at hr; exact hr
  rw [← b6]
  exact wp_mono (wp_copyConstruct env st hor b1 b2 b3 b4 b5 hB) fun _ _ h => ⟨trivial, h⟩

theorem wp_swapRoots_self {h : Heap V} {x : Root} {Q : Unit → Heap V → Prop} (q : Q () h) : wp (swapRoots x x) Q h := by
  refine ⟨(), h, ?_, q⟩
  have : upd (upd h.root x (h.root x)) x (h.root x) = h.root := by
    funext y; by_cases e : y = x <;> simp [upd, e]
  simp only [swapRoots, this]

/-- Exchange the leaves of two containers. -/
theorem wl_exchange {g : Pic V} {h h' : Heap V} {C : Nat → List Nat} {L : Nat → List (Leaf V)} {a b : Nat} (hab : a ≠ b)
    (w : Wld g h C) (hL : ∀ o, (C o).map g.D = L o) {R' : Root → Option Nat}
    (s : Sat { g with R := R' } h')
    (hla : R' (.left a) = g.R (.left b)) (hlb : R' (.left b) = g.R (.left a))
    (hra : R' (.right a) = g.R (.right b)) (hrb : R' (.right b) = g.R (.right a))
    (hR : ∀ r, r ≠ .left a → r ≠ .left b → r ≠ .right a → r ≠ .right b → R' r = g.R r) :
    WldM (exch a b) h C h' (upd (upd L a (L b)) b (L a)) := by
  have hC : ∀ o, ∃ p, upd (upd C a (C b)) b (C a) o = C p := fun o => by
    by_cases e1 : o = b
    · exact ⟨a, by simp [e1]⟩
    · by_cases e2 : o = a
      · exact ⟨b, by simp [upd, e2, hab]⟩
      · exact ⟨o, by simp [upd, e1, e2]⟩
  have w' : Wld { g with R := R' } h' (upd (upd C a (C b)) b (C a)) := by
   refine ⟨s, fun o => ?_, fun o => ?_, fun o => ?_, fun o => ?_, fun o => ?_,
    fun o p hop x hx => ?_, fun x => ?_, fun x hx => ?_⟩
   · by_cases e1 : o = b
     · subst e1; simp [hlb, w.left]
     · by_cases e2 : o = a
       · subst e2; simp [upd, hab, hla, w.left]
       · simp [upd, e1, e2, hR, w.left]
   · by_cases e1 : o = b
     · subst e1; simp [hrb, w.right]
     · by_cases e2 : o = a
       · subst e2; simp [upd, hab, hra, w.right]
       · simp [upd, e1, e2, hR, w.right]
   · obtain ⟨p, hp⟩ := hC o
     rw [hp]; exact w.fwd p
   · obtain ⟨p, hp⟩ := hC o
     rw [hp]; exact w.bwd p
   · obtain ⟨p, hp⟩ := hC o
     rw [hp]; exact w.nodup p
   · have key : ∀ o, upd (upd C a (C b)) b (C a) o = C (if o = b then a else if o = a then b else o) := by
       intro o
       by_cases e1 : o = b
       · simp [e1]
       · by_cases e2 : o = a
         · simp [upd, e2, hab]
         · simp [upd, e1, e2]
     rw [key] at hx ⊢
     refine w.disj _ _ ?_ x hx
     split <;> split <;> (try split) <;> (try split) <;> omega
   · show R' (.var x) = none
     rw [hR _ (by simp) (by simp) (by simp) (by simp), w.vars]
   · obtain ⟨o, ho⟩ := w.U x hx
     by_cases e1 : o = b
     · subst e1; exact ⟨a, by simpa [upd, hab] using ho⟩
     · by_cases e2 : o = a
       · subst e2; exact ⟨b, by simpa [upd] using ho⟩
       · exact ⟨o, by simpa [upd, e1, e2] using ho⟩
  refine ⟨_, ⟨_, w', fun o => ?_⟩, fun p q e => ?_⟩
  · show (upd (upd C a (C b)) b (C a) o).map g.D = _
    by_cases e1 : o = b
    · subst e1; simpa using hL a
    · by_cases e2 : o = a
      · subst e2; simpa [upd, hab] using hL b
      · simpa [upd, e1, e2] using hL o
  · have hpq : upd (upd C a (C b)) b (C a) p = C q := by
      simp only [exch] at e
      by_cases e1 : p = b
      · simp only [if_pos e1, Option.some.injEq] at e; simp [e1, e]
      · by_cases e2 : p = a
        · simp only [if_neg e1, if_pos e2, Option.some.injEq] at e; subst e; simp [upd, e2, hab]
        · simp only [if_neg e1, if_neg e2, Option.some.injEq] at e; subst e; simp [upd, e1, e2]
    refine ⟨hpq, fun x hx => ?_⟩
    rw [w'.keyAt (o := p) (by rw [hpq]; exact hx), w.keyAt hx]

theorem wl_swap {h : Heap V} {C : Nat → List Nat} {L : Nat → List (Leaf V)} (w : WldC h C L) (a b : Nat) :
    wp (swapLeaves a b) (fun _ h' => WldM (exch a b) h C h' (upd (upd L a (L b)) b (L a))) h := by
  unfold swapLeaves
  by_cases hab : a = b
  · subst hab
    refine wp_bind (wp_swapRoots_self (wp_swapRoots_self ?_))
    have : upd (upd L a (L a)) a (L a) = L := by
      funext y; by_cases e : y = a <;> simp [upd, e]
    rw [this]
    exact ⟨C, w, fun p q e => by
      have : p = q := by
        simp only [exch] at e
        by_cases e1 : p = a <;> simp [e1] at e <;> rw [← e] <;> exact e1
      subst this; exact ⟨rfl, fun _ _ => rfl⟩⟩
  · obtain ⟨g, w, hL⟩ := w
    refine wp_bind (wp_swapRoots w.sat (by simp [hab]) fun h1 s1 => ?_)
    refine wp_swapRoots s1 (by simp [hab]) fun h2 s2 => ?_
    refine wl_exchange hab w hL s2 ?_ ?_ ?_ ?_ ?_
    · simp [upd, hab]
    · simp [upd]
    · simp [upd, hab]
    · simp [upd]
    · intro r h1 h2 h3 h4
      simp [upd, h1, h2, h3, h4]

theorem wl_move {h : Heap V} {C : Nat → List Nat} {L : Nat → List (Leaf V)} (w : WldC h C L) {o r : Nat} (ho : L o = []) (hor : o ≠ r) :
    wp (moveConstruct o r) (fun _ h' => WldM (fromTo r o) h C h' (upd (upd L o (L r)) r [])) h := by
  obtain ⟨g, w, hL⟩ := w
  have hCo : C o = [] := by have := hL o; rw [ho] at this; simpa using this
  unfold moveConstruct
  refine wp_bind (wp_moveTo w.sat (l := .root (.left o)) rfl (by simp [hor]) fun h1 s1 => ?_)
  refine wp_moveTo s1 (l := .root (.right o)) rfl (by simp [hor]) fun h2 s2 => ?_
  simp only [Pic.set] at s2
  rw [← ho]
  have weak : ∀ p q, fromTo r o p = some q → exch o r p = some q := fun p q e => by
    simp only [fromTo, exch] at e ⊢
    by_cases e1 : p = r
    · simp [e1] at e
    · rw [if_neg e1] at e ⊢; exact e
  have hl : g.R (.left o) = none := by rw [w.left, hCo]; rfl
  have hr : g.R (.right o) = none := by rw [w.right, hCo]; rfl
  suffices hx : WldM (exch o r) h C h2 (upd (upd L o (L r)) r (L o)) by
    obtain ⟨C', w', mv⟩ := hx
    exact ⟨C', w', mv.weaken weak⟩
  refine wl_exchange hor w hL s2 ?_ ?_ ?_ ?_ ?_
  · simp [upd]
  · simp [upd, Ne.symm hor, hl]
  · simp [upd]
  · simp [upd, Ne.symm hor, hr]
  · intro q h1 h2 h3 h4
    simp [upd, h1, h2, h3, h4]

/-! ## Iterators -/

theorem wp_peek {g0 g : Pic V} {h : Heap V} {o : Nat} {as : List Nat} {ls : List (Leaf V)} {X : Nat → Prop} {vs : List Var}
    (st : St g0 g h o as ls X vs) (i : Option Nat) {Q : Option (Leaf V) → Heap V → Prop}
    (q : Q (i.bind (ls[·]?)) h) : wp (peek (i.bind (as[·]?))) Q h := by
  cases i with
  | none => exact wp_ret q
  | some i =>
    rw [← st.data] at q
    simp only [Option.bind_some, List.getElem?_map] at q ⊢
    cases e : as[i]? with
    | none => rw [e] at q; exact wp_ret q
    | some a =>
      rw [e] at q
      have ha := st.live (List.mem_of_getElem? e)
      exact wp_bind (wp_getKey st.sat ha (wp_bind (wp_getVal st.sat ha (wp_pure q))))

theorem wp_advance {g0 g : Pic V} {h : Heap V} {o : Nat} {as : List Nat} {ls : List (Leaf V)} {X : Nat → Prop} {vs : List Var}
    (st : St g0 g h o as ls X vs) {Q : Option Nat → Heap V → Prop} : ∀ (i j : Nat), j + i < as.length →
    Q as[j + i]? h → wp (advance i as[j]?) Q h := by
  intro i
  induction i with
  | zero => intro j _ q; exact wp_ret q
  | succ i ih =>
    intro j hj q
    unfold advance
    obtain ⟨a, ha⟩ : ∃ a, as[j]? = some a := ⟨as[j], by simp⟩
    obtain ⟨A, B, hAB, rfl⟩ := split_at ha
    refine wp_bind (wp_nonnull ha (wp_bind (wp_getNext st.sat (st.live (by simp [hAB])) ?_)))
    have : g.N a = as[A.length + 1]? := by
      rw [st.next_eq hAB, hAB, List.getElem?_append_right (by omega)]
      simp [List.head?_eq_getElem?]
    rw [this]
    exact ih _ (by omega) (by rw [show A.length + 1 + i = A.length + (i + 1) by omega]; exact q)

theorem wp_hintP {g0 g : Pic V} {h : Heap V} {o : Nat} {as : List Nat} {ls : List (Leaf V)} {X : Nat → Prop} {vs : List Var}
    (st : St g0 g h o as ls X vs) (p : Option Nat) (hp : ∀ i, p = some i → i < as.length) {Q : Option Nat → Heap V → Prop}
    (q : Q (p.bind (as[·]?)) h) : wp (hintP o p) Q h := by
  cases p with
  | none => exact wp_ret q
  | some i =>
    refine wp_bind (wp_get st.sat ?_)
    rw [st.left, List.head?_eq_getElem?]
    exact wp_advance st i 0 (by simpa using hp i rfl) (by simpa using q)

section
variable [DecidableEq V]

theorem wl_insert {h : Heap V} {C : Nat → List Nat} {L : Nat → List (Leaf V)} (w : WldC h C L) {o : Nat} {s e : Int} {v : V} {fwd : Bool}
    {r : InsRes V} (hm : insertSegment (L o) s e v fwd = .ok r) :
    wp (insertP o s e v fwd) (fun out h' => out = (r.pos.bind (r.leaves[·]?), r.changed) ∧ WldM (off o) h C h' (upd L o r.leaves)) h := by
  refine w.one o fun g as X env st _ => ?_
  refine wp_bind (wp_mono (wp_insertSegmentP env st hm) ?_)
  rintro ⟨p, ch⟩ h1 ⟨rfl, g1, as1, st1, e1⟩
  dsimp only at e1
  subst e1
  exact wp_bind (wp_peek st1 r.pos (wp_pure ⟨rfl, g1, as1, st1⟩))

theorem wl_insertAt {h : Heap V} {C : Nat → List Nat} {L : Nat → List (Leaf V)} (w : WldC h C L) {o : Nat} {hint : Option Nat} {s e : Int} {v : V}
    {r : InsRes V} (hm : insertHint (L o) hint s e v = .ok r) :
    wp (insertAtP o hint s e v) (fun out h' => out = (r.pos.bind (r.leaves[·]?), r.changed) ∧ WldM (off o) h C h' (upd L o r.leaves)) h := by
  refine w.one o fun g as X env st _ => ?_
  have hh : ∀ i, hint = some i → i < as.length := by
    rintro i rfl
    rw [st.len]
    by_contra hi
    unfold insertHint at hm
    simp [List.getElem?_eq_none (Nat.le_of_not_lt hi)] at hm
  refine wp_bind (wp_hintP st hint hh (wp_bind (wp_mono (wp_insertHintP env st hm) ?_)))
  rintro ⟨p, ch⟩ h1 ⟨rfl, g1, as1, st1, e1⟩
  dsimp only at e1
  subst e1
  exact wp_bind (wp_peek st1 r.pos (wp_pure ⟨rfl, g1, as1, st1⟩))

theorem wl_shiftLeft {h : Heap V} {C : Nat → List Nat} {L : Nat → List (Leaf V)} (w : WldC h C L) {o : Nat} {iv : V} {s e : Int}
    {ls : List (Leaf V)} {b : Bool} (hm : shiftLeftLeaves (L o) iv s e = .ok (ls, b)) :
    wp (shiftLeftP o iv s e) (fun out h' => out = b ∧ WldM (off o) h C h' (upd L o ls)) h := by
  refine w.one o fun g as X env st _ => ?_
  exact wp_mono (wp_shiftLeftP env st hm) fun out h' ⟨e, g', as', st', _⟩ => ⟨e, g', as', st'⟩

theorem wl_shiftRight {h : Heap V} {C : Nat → List Nat} {L : Nat → List (Leaf V)} (w : WldC h C L) {o : Nat} {iv : V} {pos size : Int} {skip : Bool}
    {ls : List (Leaf V)} {b : Bool} (hm : shiftRightLeaves (L o) iv pos size skip = .ok (ls, b)) :
    wp (shiftRightP o iv pos size skip) (fun out h' => out = b ∧ WldM (off o) h C h' (upd L o ls)) h := by
  refine w.one o fun g as X env st _ => ?_
  exact wp_mono (wp_shiftRightP env st hm) fun out h' ⟨e, g', as', st', _⟩ => ⟨e, g', as', st'⟩

end

theorem wl_assignCopy {h : Heap V} {C : Nat → List Nat} {L : Nat → List (Leaf V)} (w : WldC h C L) (h0 : L 0 = []) {o r : Nat}
    (ho : o ≠ 0) (hr : r ≠ 0) (h1 : 2 ≤ (L r).length) (h2 : (L o).length ≠ 1) :
    wp (assignCopyP o r) (fun _ h' => WldM (fun p => if p = 0 then none else off o p) h C h' (upd L o (L r))) h := by
  unfold assignCopyP
  refine wp_bind (wp_mono (wl_copy w h0 (Ne.symm hr) h1) fun _ h3 ⟨C3, w3, m3⟩ =>
    wp_bind (wp_mono (wl_swap w3 o 0) fun _ h4 ⟨C4, w4, m4⟩ => ?_))
  refine wp_mono (wl_destruct w4 (o := 0) (by simpa [upd, ho] using h2)) fun _ h5 ⟨C5, w5, m5⟩ => ?_
  refine ⟨C5, ?_, ((m3.comp m4).comp m5).weaken fun p q e => ?_⟩
  · convert w5 using 1
    funext p
    by_cases e1 : p = 0
    · subst e1; simp [upd, Ne.symm ho, h0]
    · by_cases e2 : p = o
      · subst e2; simp [upd, e1]
      · simp [upd, e1, e2]
  · by_cases e1 : p = 0
    · simp [e1] at e
    · by_cases e2 : p = o
      · simp [e1, e2, off] at e
      · simpa [e1, e2, off, exch] using e

theorem wl_assignMove {h : Heap V} {C : Nat → List Nat} {L : Nat → List (Leaf V)} (w : WldC h C L) (h0 : L 0 = []) {o r : Nat}
    (ho : o ≠ 0) (hr : r ≠ 0) (h2 : o ≠ r → (L o).length ≠ 1) :
    wp (assignMoveP o r) (fun _ h' => WldM (fun p => if p = 0 then none else if o = r then some p else fromTo r o p) h C h'
      (if o = r then L else upd (upd L o (L r)) r [])) h := by
  unfold assignMoveP
  refine wp_bind (wp_mono (wl_move w h0 (Ne.symm hr)) fun _ h3 ⟨C3, w3, m3⟩ =>
    wp_bind (wp_mono (wl_swap w3 o 0) fun _ h4 ⟨C4, w4, m4⟩ => ?_))
  refine wp_mono (wl_destruct w4 (o := 0) ?_) fun _ h5 ⟨C5, w5, m5⟩ => ⟨C5, ?_, ((m3.comp m4).comp m5).weaken fun p q e => ?_⟩
  · by_cases e : o = r
    · subst e; simp
    · simpa [upd, ho, e] using h2 e
  · convert w5 using 1
    funext p
    by_cases e : o = r
    · subst e
      rw [if_pos rfl]
      by_cases e1 : p = 0
      · subst e1; simp [h0]
      · by_cases e2 : p = o
        · subst e2; simp [upd, e1, Ne.symm e1]
        · simp [upd, e1, e2]
    · rw [if_neg e]
      by_cases e1 : p = 0
      · subst e1; simp [upd, Ne.symm hr, Ne.symm ho, h0]
      · by_cases e2 : p = o
        · subst e2; simp [upd, e1, e, Ne.symm hr]
        · by_cases e3 : p = r
          · subst e3; simp [upd, e1, e2]
          · simp [upd, e1, e2, e3]
  · by_cases e1 : p = 0
    · simp [e1] at e
    · by_cases e2 : p = o
      · subst e2
        by_cases e3 : p = r
        · subst e3; simpa [e1, Ne.symm e1, off, exch, fromTo] using e
        · simpa [e1, e3, off, exch, fromTo, Ne.symm hr] using e
      · by_cases e3 : p = r
        · subst e3; simp [e1, Ne.symm e2, fromTo] at e
        · by_cases e4 : o = r
          · subst e4; simpa [e1, e2, off, exch, fromTo] using e
          · simpa [e1, e2, e3, e4, off, exch, fromTo] using e

theorem wl_empty (v : V) : WldC (Mdds.FST.Mem.empty : Heap V) (fun _ => []) (fun _ => []) := by
  refine ⟨⟨fun _ => none, fun _ => none, fun _ => 0, fun _ => v, fun _ => none, fun _ => False, 0⟩, ⟨⟨⟨?_, ?_, ?_, ?_, ?_⟩, ?_, fun _ => rfl, rfl⟩, ?_, ?_, ?_, ?_, ?_, ?_, ?_, ?_⟩, ?_⟩ <;>
    simp [Mdds.FST.Mem.empty, Heap.read]
  intro l a
  cases l <;> simp

end Mdds.FST.Mem
