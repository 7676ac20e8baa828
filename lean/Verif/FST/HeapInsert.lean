import Verif.FST.HeapChain

/-!
# Insertion in memory does what insertion into the list of leaves does
-/
namespace Mdds.FST.Mem

variable {V : Type}

section
variable {g0 g : Pic V} {h : Heap V} {o : Nat} {as : List Nat} {ls : List (Leaf V)} {X : Nat → Prop} {vs : List Var}

theorem St.weaken (st : St g0 g h o as ls X vs) {vs' : List Var} (hv : ∀ x ∈ vs, x ∈ vs') :
    St g0 g h o as ls X vs' :=
  { st with vars := fun x a e => ⟨(st.vars x a e).1, hv x (st.vars x a e).2⟩ }

/-- Assigning a local variable. -/
theorem St.setVar (st : St g0 g h o as ls X vs) {x : Var} {v : Option Nat} {h' : Heap V}
    (s : Sat (g.set (.root (.var x)) v) h') (hv : ∀ a, v = some a → a ∈ as) {vs' : List Var}
    (hvs : ∀ y ∈ vs, y = x ∨ y ∈ vs') (hx : x ∈ vs' ∨ v = none) :
    St g0 (g.set (.root (.var x)) v) h' o as ls X vs' := by
  refine ⟨s, ?_, ?_, st.fwd, st.bwd, st.data, st.nodup, st.disj, fun y a e => ?_, fun r h1 h2 h3 => ?_, st.frame,
    st.mono, st.U⟩
  · simpa [Pic.set, upd] using st.left
  · simpa [Pic.set, upd] using st.right
  · by_cases hy : y = x
    · subst hy
      have e' : v = some a := by simpa [Pic.set] using e
      refine ⟨.inl (hv a e'), hx.resolve_right (by rw [e']; simp)⟩
    · have e' : g.R (.var y) = some a := by simpa [Pic.set, upd, hy] using e
      exact ⟨(st.vars y a e').1, (hvs y (st.vars y a e').2).resolve_left hy⟩
  · have := h3 x
    simpa [Pic.set, upd, this] using st.roots r h1 h2 h3

theorem wp_setVar (st : St g0 g h o as ls X vs) {x : Var} {v : Option Nat} (hv : ∀ a, v = some a → a ∈ as)
    {vs' : List Var} (hvs : ∀ y ∈ vs, y = x ∨ y ∈ vs') (hx : x ∈ vs' ∨ v = none) {Q : Unit → Heap V → Prop}
    (q : ∀ h', St g0 (g.set (.root (.var x)) v) h' o as ls X vs' → Q () h') :
    wp (assign (.root (.var x)) v) Q h :=
  wp_assign st.sat rfl (fun a ha => st.live (hv a ha)) fun h' s => q h' (st.setVar s hv hvs hx)

theorem wp_dropVar (st : St g0 g h o as ls X vs) {x : Var} {vs' : List Var} (hvs : ∀ y ∈ vs, y = x ∨ y ∈ vs')
    {Q : Unit → Heap V → Prop}
    (q : ∀ h', St g0 (g.set (.root (.var x)) none) h' o as ls X vs' → Q () h') : wp (drop x) Q h :=
  wp_setVar st (by simp) hvs (.inr rfl) q

/-- Moving a local variable into another one. -/
theorem wp_moveVar (st : St g0 g h o as ls X vs) {x y : Var} (hxy : x ≠ y) {vs' : List Var}
    (hvs : ∀ z ∈ vs, z = x ∨ z = y ∨ z ∈ vs') (hx : x ∈ vs') {Q : Unit → Heap V → Prop}
    (q : ∀ h', St g0 ((g.set (.root (.var y)) none).set (.root (.var x)) (g.R (.var y))) h' o as ls X vs' → Q () h') :
    wp (moveTo (.root (.var x)) (.var y)) Q h := by
  refine wp_moveTo st.sat rfl (by simpa using hxy) fun h' s => q h' ?_
  refine ⟨s, ?_, ?_, st.fwd, st.bwd, st.data, st.nodup, st.disj, fun z a e => ?_, fun r h1 h2 h3 => ?_, st.frame,
    st.mono, st.U⟩
  · simpa [Pic.set, upd] using st.left
  · simpa [Pic.set, upd] using st.right
  · by_cases hz : z = x
    · subst hz
      have e' : g.R (.var y) = some a := by simpa [Pic.set, upd] using e
      exact ⟨(st.vars y a e').1, hx⟩
    · by_cases hz' : z = y
      · subst hz'
        simp [Pic.set, upd, hz] at e
      · have e' : g.R (.var z) = some a := by simpa [Pic.set, upd, hz, hz'] using e
        refine ⟨(st.vars z a e').1, ?_⟩
        rcases hvs z (st.vars z a e').2 with h | h | h
        · exact absurd h hz
        · exact absurd h hz'
        · exact h
  · have := h3 x
    have := h3 y
    simpa [Pic.set, upd, h3 x, h3 y] using st.roots r h1 h2 h3

/-- The leaf before a given one. -/
theorem St.prev_eq (st : St g0 g h o as ls X vs) {A B : List Nat} {a : Nat} (e : as = A ++ a :: B) :
    g.P a = A.getLast? := by
  have := st.bwd
  rw [e, List.reverse_append, List.reverse_cons, List.append_assoc, path_append] at this
  simpa using this.2.1

/-- The leaf after a given one. -/
theorem St.next_eq (st : St g0 g h o as ls X vs) {A B : List Nat} {a : Nat} (e : as = A ++ a :: B) :
    g.N a = B.head? := by
  have := st.fwd
  rw [e, path_append] at this
  simpa using this.2.1

theorem split_at {α : Type} {l : List α} {i : Nat} {a : α} (e : l[i]? = some a) :
    ∃ A B, l = A ++ a :: B ∧ A.length = i := by
  obtain ⟨hi, rfl⟩ := List.getElem?_eq_some_iff.1 e
  exact ⟨l.take i, l.drop (i + 1), by simp, by simp; omega⟩

theorem nil_or_snoc {α : Type} (l : List α) : l = [] ∨ ∃ l' a, l = l' ++ [a] := by
  rcases List.eq_nil_or_concat l with h | ⟨l', a, h⟩
  · exact .inl h
  · exact .inr ⟨l', a, by simpa using h⟩

theorem take_snoc {α : Type} {x z : List α} {y : α} {n : Nat} (hn : x.length = n) :
    (x ++ y :: z).take (n + 1) = x ++ [y] := by
  subst hn; simp [List.take_append, List.take_of_length_le]

theorem drop_snoc {α : Type} {x z : List α} {y : α} {n : Nat} (hn : x.length = n) :
    (x ++ y :: z).drop (n + 1) = z := by
  subst hn; simp [List.drop_append]

/-- Overwriting the value of a leaf. -/
theorem St.setVal (st : St g0 g h o as ls X vs) {A B : List Nat} {a : Nat} (e : as = A ++ a :: B) {v : V} {h' : Heap V}
    (s : Sat { g with W := upd g.W a v } h') {ls' : List (Leaf V)}
    (hl : ls' = A.map g.D ++ (g.K a, v) :: B.map g.D) :
    St g0 { g with W := upd g.W a v } h' o as ls' X vs := by
  have hn := st.nodup
  rw [e, List.nodup_append] at hn
  obtain ⟨n1, n2, n3⟩ := hn
  rw [List.nodup_cons] at n2
  refine ⟨s, st.left, st.right, st.fwd, st.bwd, ?_, st.nodup, st.disj, st.vars, st.roots, fun b hb => ?_,
    st.mono, st.U⟩
  · rw [e, hl, List.map_append, List.map_cons]
    congr 1
    · exact map_D_congr (fun _ _ => rfl) fun b hb => upd_ne _ _ (n3 b hb a (by simp))
    · congr 1
      · simp [Pic.D]
      · exact map_D_congr (fun _ _ => rfl) fun b hb => upd_ne _ _ (fun e => n2.1 (e ▸ hb))
  · have : b ≠ a := fun e' => st.disj a (by rw [e]; simp) (e' ▸ hb)
    have hf := st.frame b hb
    exact ⟨hf.1, hf.2.1, hf.2.2.1, by simp [upd_ne _ _ this, hf.2.2.2]⟩

theorem wp_setValSt (st : St g0 g h o as ls X vs) {A B : List Nat} {a : Nat} (e : as = A ++ a :: B) {v : V}
    {Q : Unit → Heap V → Prop}
    (q : ∀ h', St g0 { g with W := upd g.W a v } h' o as (A.map g.D ++ (g.K a, v) :: B.map g.D) X vs → Q () h') :
    wp (setVal a v) Q h :=
  wp_setVal st.sat (st.live (by rw [e]; simp)) fun h' s => q h' (st.setVal e s rfl)

end

/-- Linking the new node between two neighbours. -/
theorem St.insert {g0 g g' : Pic V} {h h' : Heap V} {o : Nat} {A B : List Nat} {l r : Nat} {ls ls' : List (Leaf V)}
    {X : Nat → Prop} {vs vs' : List Var} (env : Env g0 o X) (st : St g0 g h o (A ++ l :: r :: B) ls X vs)
    (s' : Sat g' h') (hN : ∀ a, g'.N a = if a = g.fr then some r else if a = l then some g.fr else g.N a)
    (hP : ∀ a, g'.P a = if a = g.fr then some l else if a = r then some g.fr else g.P a)
    (hK : ∀ a, X a → g'.K a = g.K a) (hW : ∀ a, X a → g'.W a = g.W a)
    (data : (A ++ l :: g.fr :: r :: B).map g'.D = ls')
    (vars : ∀ x a, g'.R (.var x) = some a → (a ∈ (A ++ l :: g.fr :: r :: B) ∨ X a) ∧ x ∈ vs')
    (hR : ∀ q, (∀ x, q ≠ .var x) → g'.R q = g.R q) (hU : ∀ a, g'.U a → g.U a ∨ a = g.fr) (hf : g.fr ≤ g'.fr) :
    St g0 { g' with U := fun a => a ∈ (A ++ l :: g.fr :: r :: B) ∨ X a } h' o (A ++ l :: g.fr :: r :: B) ls' X vs' := by
  have hfr := st.fr_notin
  have hfX := st.fr_notX env
  have hnd := st.nodup
  have hmem : ∀ a, a ∈ (A ++ l :: g.fr :: r :: B) ↔ a ∈ (A ++ l :: r :: B) ∨ a = g.fr := by
    intro a; simp; tauto
  have hlA : l ∉ A ∧ l ≠ r ∧ l ∉ B ∧ r ∉ A ∧ r ∉ B := by
    simp only [List.nodup_append, List.nodup_cons, List.mem_cons] at hnd
    refine ⟨fun h => hnd.2.2 l h l (by simp) rfl, fun h => hnd.2.1.1 (.inl h), fun h => hnd.2.1.1 (.inr h),
      fun h => hnd.2.2 r h r (by simp) rfl, fun h => hnd.2.1.2.1 h⟩
  have hfA : g.fr ∉ A ∧ g.fr ≠ l ∧ g.fr ≠ r ∧ g.fr ∉ B := by simpa using hfr
  refine St.build env s' ?_ ?_ ?_ ?_ data ?_ ?_ vars ?_ ?_ (Nat.le_trans st.mono hf) (fun _ => 0) ?_
  · rw [hR _ (by simp), st.left]; cases A <;> simp
  · rw [hR _ (by simp), st.right]; simp [List.getLast?_append, List.getLast?_cons]
  · have hp := st.fwd
    rw [path_append] at hp
    rw [path_append]
    have hp2 := hp.2
    simp only [path_cons] at hp2
    refine ⟨(path_congr fun a ha => ?_).2 (by simpa using hp.1), ?_, ?_, ?_, (path_congr fun a ha => ?_).2 hp2.2.2⟩
    · have h1 : a ≠ g.fr := fun e => hfA.1 (e ▸ ha)
      have h2 : a ≠ l := fun e => hlA.1 (e ▸ ha)
      rw [hN, if_neg h1, if_neg h2]
    · rw [hN, if_neg (Ne.symm hfA.2.1), if_pos rfl]; simp
    · rw [hN, if_pos rfl]; simp
    · rw [hN, if_neg (Ne.symm hfA.2.2.1), if_neg (Ne.symm hlA.2.1), hp2.2.1]
    · have h1 : a ≠ g.fr := fun e => hfA.2.2.2 (e ▸ ha)
      have h2 : a ≠ l := fun e => hlA.2.2.1 (e ▸ ha)
      rw [hN, if_neg h1, if_neg h2]
  · have hp := st.bwd
    have e1 : (A ++ l :: r :: B).reverse = B.reverse ++ r :: l :: A.reverse := by simp
    have e2 : (A ++ l :: g.fr :: r :: B).reverse = B.reverse ++ r :: g.fr :: l :: A.reverse := by simp
    rw [e1, path_append] at hp
    rw [e2, path_append]
    have hp2 := hp.2
    simp only [path_cons] at hp2
    refine ⟨(path_congr fun a ha => ?_).2 (by simpa using hp.1), ?_, ?_, ?_, (path_congr fun a ha => ?_).2 hp2.2.2⟩
    · rw [List.mem_reverse] at ha
      have h1 : a ≠ g.fr := fun e => hfA.2.2.2 (e ▸ ha)
      have h2 : a ≠ r := fun e => hlA.2.2.2.2 (e ▸ ha)
      rw [hP, if_neg h1, if_neg h2]
    · rw [hP, if_neg (Ne.symm hfA.2.2.1), if_pos rfl]; simp
    · rw [hP, if_pos rfl]; simp
    · rw [hP, if_neg (Ne.symm hfA.2.1), if_neg hlA.2.1, hp2.2.1]
    · rw [List.mem_reverse] at ha
      have h1 : a ≠ g.fr := fun e => hfA.1 (e ▸ ha)
      have h2 : a ≠ r := fun e => hlA.2.2.2.1 (e ▸ ha)
      rw [hP, if_neg h1, if_neg h2]
  · have : (A ++ l :: g.fr :: r :: B).Perm (g.fr :: (A ++ l :: r :: B)) := by
      have := (List.perm_middle (a := g.fr) (l₁ := A ++ [l]) (l₂ := r :: B))
      simpa using this
    rw [this.nodup_iff, List.nodup_cons]
    exact ⟨hfr, hnd⟩
  · intro a ha
    rcases (hmem a).1 ha with h | rfl
    · exact st.disj a h
    · exact hfX
  · intro q h1 h2 h3
    rw [hR q h3]; exact st.roots q h1 h2 h3
  · intro a ha
    have h1 : a ≠ g.fr := fun e => hfX (e ▸ ha)
    have h2 : a ≠ l := fun e => st.disj l (by simp) (e ▸ ha)
    have h3 : a ≠ r := fun e => st.disj r (by simp) (e ▸ ha)
    obtain ⟨f1, f2, f3, f4⟩ := st.frame a ha
    exact ⟨by rw [hN, if_neg h1, if_neg h2, f1], by rw [hP, if_neg h1, if_neg h3, f2], by rw [hK a ha, f3],
      by rw [hW a ha, f4]⟩
  · intro a hUa hna hXa
    rcases hU a hUa with h | h
    · rcases st.U a h with h | h
      · exact absurd ((hmem a).2 (.inl h)) hna
      · exact absurd h hXa
    · exact absurd ((hmem a).2 (.inr h)) hna

theorem wp_setNext {g : Pic V} {h : Heap V} (s : Sat g h) {a : Nat} (ha : Live h a) {v : Option Nat}
    (hv : ∀ b, v = some b → Live h b) {Q : Unit → Heap V → Prop}
    (q : ∀ h', Sat { g with N := upd g.N a v } h' → Q () h') : wp (assign (.next a) v) Q h :=
  wp_assign s (l := .next a) ha hv q

theorem wp_setPrev {g : Pic V} {h : Heap V} (s : Sat g h) {a : Nat} (ha : Live h a) {v : Option Nat}
    (hv : ∀ b, v = some b → Live h b) {Q : Unit → Heap V → Prop}
    (q : ∀ h', Sat { g with P := upd g.P a v } h' → Q () h') : wp (assign (.prev a) v) Q h :=
  wp_assign s (l := .prev a) ha hv q

theorem wp_linkNodes {g : Pic V} {h : Heap V} (s : Sat g h) {x y : Root} {a b : Nat} (hx : g.R x = some a)
    (hy : g.R y = some b) {Q : Unit → Heap V → Prop}
    (q : ∀ h', Sat ((g.set (.next a) (some b)).set (.prev b) (some a)) h' → Q () h') : wp (linkNodes x y) Q h := by
  unfold linkNodes
  refine wp_bind (wp_get s (wp_bind (wp_nonnull hx (wp_bind (wp_get s (wp_bind ?_))))))
  refine wp_setNext s (s.live_root hx) (fun c hc => by rw [hy] at hc; cases hc; exact s.live_root hy) fun h' s' => ?_
  rw [hy] at s'
  have hx' : (g.set (.next a) (some b)).R x = some a := hx
  have hy' : (g.set (.next a) (some b)).R y = some b := hy
  refine wp_bind (wp_get s' (wp_bind (wp_nonnull hy' (wp_bind (wp_get s' ?_)))))
  simp only [hx]
  exact wp_setPrev s' (s'.live_root (r := y) hy') (fun c hc => by cases hc; exact s'.live_root hx') fun h'' s'' => q h'' s''

/-! ## The start node -/

section
variable [DecidableEq V]

set_option maxHeartbeats 2000000 in
theorem wp_insStartP {g0 g : Pic V} {h : Heap V} {o : Nat} {as : List Nat} {X : Nat → Prop}
    (env : Env g0 o X) (st : St g0 g h o as (as.map g.D) X [.startPos, .endPos]) {i j : Nat}
    (hs : g.R (.var .startPos) = as[i]?) (he : g.R (.var .endPos) = as[j]?) (hij : i ≤ j) {s : Int} {val : V}
    {ls1 : List (Leaf V)} {ns : Nat} {old0 : V} {j1 : Nat} {ch0 : Bool}
    (hm : insStart (as.map g.D) i j s val = .ok (ls1, ns, old0, j1, ch0)) :
    wp (insStartP s val) (fun r h' => r = (old0, ch0) ∧ ∃ g' as1,
      St g0 g' h' o as1 ls1 X [.newStart, .startPos, .endPos] ∧ g'.R (.var .newStart) = as1[ns]? ∧
      g'.R (.var .endPos) = as1[j1]?) h := by
  -- the start position
  cases hsp : as[i]? with
  | none => simp [insStart, hsp] at hm
  | some sp =>
    obtain ⟨A, B, rfl, rfl⟩ := split_at hsp
    rw [hsp] at hs
    have hlsp : Live h sp := st.live (by simp)
    unfold insStartP
    refine wp_bind (wp_get st.sat (wp_bind (wp_nonnull hs (wp_bind (wp_getKey st.sat hlsp ?_)))))
    have hP : g.P sp = A.getLast? := st.prev_eq rfl
    have hwk : ∀ x ∈ [Var.startPos, .endPos], x = .newStart ∨ x ∈ [Var.newStart, .startPos, .endPos] := by simp
    -- taking over the node as it is
    have update : ∀ h1 : Heap V, h1 = h → g.K sp = s → ((A.map g.D).set A.length (g.K sp, val) = A.map g.D) →
        (ls1, ns, old0, j1, ch0) = ((A ++ sp :: B).map g.D |>.set A.length (g.K sp, val), A.length, g.W sp, j,
          decide (g.W sp ≠ val)) →
        wp (do
          let old ← getVal sp
          setVal sp val
          moveTo (.root (.var .newStart)) (.var .startPos)
          return (old, decide (old ≠ val)) : Prog V (V × Bool)) (fun r h' => r = (old0, ch0) ∧ ∃ g' as1,
            St g0 g' h' o as1 ls1 X [.newStart, .startPos, .endPos] ∧ g'.R (.var .newStart) = as1[ns]? ∧
            g'.R (.var .endPos) = as1[j1]?) h1 := by
      intro h1 e1 _ _ hr
      subst e1
      simp only [Prod.mk.injEq] at hr
      obtain ⟨rfl, rfl, rfl, rfl, rfl⟩ := hr
      refine wp_bind (wp_getVal st.sat hlsp (wp_bind (wp_setValSt st rfl fun h2 st2 => wp_bind ?_)))
      refine wp_moveVar st2 (by simp) (vs' := [.newStart, .startPos, .endPos]) (by simp) (by simp)
        fun h3 st3 => wp_pure ?_
      have e : ((A ++ sp :: B).map g.D).set A.length (g.K sp, val) =
            A.map g.D ++ (g.K sp, val) :: B.map g.D := by
          rw [List.map_append, List.map_cons, List.set_append_right _ _ (by simp)]
          simp
      rw [← e] at st3
      refine ⟨rfl, _, _, st3, ?_, ?_⟩
      · simp [Pic.set, upd, hs]
      · simpa [Pic.set, upd] using he
    by_cases hk : g.K sp = s
    · rw [if_pos hk]
      refine wp_bind (wp_getPrev st.sat hlsp ?_)
      rw [hP]
      rcases nil_or_snoc A with rfl | ⟨A', l, rfl⟩
      · -- no leaf before
        simp only [List.getLast?_nil]
        refine update h rfl hk (by simp) ?_
        simpa [insStart, Pic.D, hk, eq_comm] using hm
      · have hl : Live h l := st.live (by simp)
        simp only [List.getLast?_concat]
        refine wp_bind (wp_getVal st.sat hl ?_)
        by_cases hv : g.W l = val
        · rw [if_pos hv]
          refine wp_bind (wp_getVal st.sat hlsp (wp_bind (wp_getPrev st.sat hlsp (wp_bind ?_))))
          refine wp_setVar st (by rw [hP]; simp) (vs' := [.newStart, .startPos, .endPos]) hwk (.inl (by simp))
            fun h2 st2 => wp_pure ?_
          have hm' : (ls1, ns, old0, j1, ch0) =
              ((A' ++ [l] ++ sp :: B).map g.D, A'.length, g.W sp, j, false) := by
            simpa [insStart, Pic.D, hk, hv, eq_comm] using hm
          simp only [Prod.mk.injEq] at hm'
          obtain ⟨rfl, rfl, rfl, rfl, rfl⟩ := hm'
          refine ⟨rfl, _, _, st2, ?_, ?_⟩
          · simp [Pic.set, hP]
          · simpa [Pic.set, upd] using he
        · rw [if_neg hv]
          refine update h rfl hk (by simp) ?_
          simpa [insStart, Pic.D, hk, hv, eq_comm] using hm
    · rw [if_neg hk]
      refine wp_bind (wp_getPrev st.sat hlsp (wp_bind ?_))
      rcases nil_or_snoc A with rfl | ⟨A', l, rfl⟩
      · simp [insStart, Pic.D, hk] at hm
      · have hl : Live h l := st.live (by simp)
        have hP' : g.P sp = some l := by rw [hP]; simp
        refine wp_nonnull hP' (wp_bind (wp_getVal st.sat hl ?_))
        by_cases hv : g.W l = val
        · rw [if_pos hv]
          refine wp_bind (wp_getVal st.sat hl (wp_bind (wp_getPrev st.sat hlsp (wp_bind ?_))))
          refine wp_setVar st (by rw [hP]; simp) (vs' := [.newStart, .startPos, .endPos]) hwk (.inl (by simp))
            fun h2 st2 => wp_pure ?_
          have hm' : (ls1, ns, old0, j1, ch0) =
              ((A' ++ [l] ++ sp :: B).map g.D, A'.length, g.W l, j, false) := by
            simpa [insStart, Pic.D, hk, hv, eq_comm] using hm
          simp only [Prod.mk.injEq] at hm'
          obtain ⟨rfl, rfl, rfl, rfl, rfl⟩ := hm'
          refine ⟨rfl, _, _, st2, ?_, ?_⟩
          · simp [Pic.set, hP]
          · simpa [Pic.set, upd] using he
        · rw [if_neg hv]
          have hm' : (ls1, ns, old0, j1, ch0) =
              ((A' ++ [l]).map g.D ++ (s, val) :: (sp :: B).map g.D, A'.length + 1, g.W l, j + 1, true) := by
            simpa [insStart, Pic.D, hk, hv, eq_comm, take_snoc, drop_snoc] using hm
          simp only [Prod.mk.injEq] at hm'
          obtain ⟨rfl, rfl, rfl, rfl, rfl⟩ := hm'
          have hfr := st.fr_notin
          have hfX := st.fr_notX env
          have hlfr : l ≠ g.fr := fun e => hfr (by rw [← e]; simp)
          have hsfr : sp ≠ g.fr := fun e => hfr (by rw [← e]; simp)
          have hnd := st.nodup
          have hls : l ≠ sp := fun e => by
            subst e; simp [List.nodup_append] at hnd
          refine wp_bind (wp_alloc st.sat fun h1 s1 => wp_bind ?_)
          refine wp_assign s1 rfl (fun c hc => by
            cases hc; exact s1.live_root (r := .var .newNode) (by simp [Pic.new])) fun h2 s2 => ?_
          have hsp2 : Live h2 sp := s2.live_root (r := .var .startPos) (by simp [Pic.new, Pic.set, upd, hs])
          refine wp_bind (wp_getPrev s2 hsp2 (wp_bind ?_))
          have hP2 : ((g.new (.var .newNode) s val).set (.root (.var .newStart)) (some g.fr)).P sp = some l := by
            simp [Pic.new, Pic.set, upd_ne _ _ hsfr, hP']
          rw [hP2]
          refine wp_assign s2 rfl (fun c hc => by cases hc; exact s2.live_prev hsp2 hP2) fun h3 s3 => ?_
          refine wp_bind (wp_get s3 (wp_bind (wp_nonnull (a := l) (by simp [Pic.set]) (wp_bind ?_))))
          refine wp_getVal s3 (s3.live_root (r := .var .leftNode) (by simp [Pic.set])) (wp_bind ?_)
          refine wp_linkNodes s3 (a := l) (b := g.fr) (by simp [Pic.set]) (by simp [Pic.set, Pic.new, upd])
            fun h4 s4 => wp_bind ?_
          refine wp_linkNodes s4 (a := g.fr) (b := sp) (by simp [Pic.set, Pic.new, upd])
            (by simp [Pic.set, Pic.new, upd, hs]) fun h5 s5 => wp_bind ?_
          refine wp_bind (wp_assign s5 rfl (by simp) fun h6 s6 => ?_)
          refine wp_bind (wp_assign s6 rfl (by simp) fun h7 s7 => wp_ret (wp_pure ?_))
          simp only [Pic.set, Pic.new] at s7
          have e0 : A' ++ [l] ++ sp :: B = A' ++ l :: sp :: B := by simp
          rw [e0] at st he hnd hfr
          have hb := St.insert (g' := _) (ls' := (A' ++ [l]).map g.D ++ (s, val) :: (sp :: B).map g.D)
            (vs' := [.newStart, .startPos, .endPos]) env st s7 ?_ ?_ ?_ ?_ ?_ ?_ ?_ ?_ ?_
          · refine ⟨?_, _, _, hb, ?_, ?_⟩
            · simp [Pic.set, Pic.new, upd_ne _ _ hlfr]
            · simp [upd]
            · obtain ⟨m, rfl⟩ : ∃ m, j = A'.length + 1 + m := ⟨j - (A'.length + 1), by simp at hij; omega⟩
              have e3 : A' ++ l :: g.fr :: sp :: B = (A' ++ [l, g.fr]) ++ (sp :: B) := by simp
              have e4 : A' ++ l :: sp :: B = (A' ++ [l]) ++ (sp :: B) := by simp
              rw [e4, List.getElem?_append_right (by simp)] at he
              rw [e3, List.getElem?_append_right (by simp)]
              simp only [List.length_append, List.length_cons, List.length_nil] at he ⊢
              simp [upd, he]
          · intro a
            by_cases e1 : a = g.fr
            · subst e1; simp
            · by_cases e2 : a = l
              · subst e2; simp [upd, e1]
              · simp [upd, e1, e2]
          · intro a
            by_cases e1 : a = g.fr
            · subst e1; simp [upd, Ne.symm hsfr]
            · by_cases e2 : a = sp
              · subst e2; simp [upd, e1]
              · simp [upd, e1, e2]
          · intro a ha
            exact upd_ne _ _ (fun e => hfX (e ▸ ha))
          · intro a ha
            exact upd_ne _ _ (fun e => hfX (e ▸ ha))
          · have hD : ∀ a ∈ A' ++ l :: sp :: B, (upd g.K g.fr s a, upd g.W g.fr val a) = g.D a := fun a ha => by
              have : a ≠ g.fr := fun e => hfr (e ▸ ha)
              simp [Pic.D, upd_ne _ _ this]
            have e5 : A' ++ l :: g.fr :: sp :: B = (A' ++ [l]) ++ g.fr :: (sp :: B) := by simp
            rw [e5, List.map_append, List.map_cons]
            congr 1
            · exact List.map_congr_left fun a ha => hD a (by simp at ha ⊢; tauto)
            · congr 1
              · simp [Pic.D]
              · exact List.map_congr_left fun a ha => hD a (by simp at ha ⊢; tauto)
          · intro x a e
            by_cases e1 : x = .newNode
            · subst e1; simp at e
            · by_cases e2 : x = .leftNode
              · subst e2; simp [upd] at e
              · by_cases e3 : x = .newStart
                · subst e3
                  have : g.fr = a := by simpa [upd] using e
                  subst this; simp
                · have := st.vars x a (by simpa [upd, e1, e2, e3] using e)
                  simp at this ⊢; tauto
          · intro q hq
            simp [upd, hq .newNode, hq .leftNode, hq .newStart]
          · intro a ha; exact ha
          · simp

end

end Mdds.FST.Mem
