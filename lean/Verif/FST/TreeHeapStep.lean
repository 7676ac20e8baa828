import Verif.FST.TreeHeapPool

/-!
# Every call, in memory and on lists
-/
namespace Mdds.FST.Pool

open Mdds.FST.Mem (Wld Pic slot wp wp_bind wp_get wp_getKey wp_getVal wp_getNext wp_nonnull wp_ret wp_pure upd upd_same upd_ne
  RelC keyAt origin off fromTo exch Objs Call Out Obj listStep memStep AllGood Legal legal_step step_addr)
open Mdds.SegTree.Mem (aw aw_bind aw_pure aw_ret aw_leaves aw_getObj aw_setObj aw_mono buildS needed Inner aw_build wp_countLeaves)

variable {V : Type}

/-- The key at an address. -/
def keyOf (h : Mdds.FST.Mem.Heap V) (a : Nat) : Int := (keyAt h a).getD 0

/-- Memory and lists agree; `C` has the addresses of the leaves. -/
structure Inv (s : State V) (W : World V) (C : Nat → List Nat) : Prop where
  rel : RelC ⟨s.mem.lh, s.init⟩ W.objs C
  pools : Pools s.mem
  temp : ex s.mem 0 = false
  exs : ∀ o, ex s.mem (slot o) = (W.objs o).isSome
  flag : ∀ o t, s.mem.obj (slot o) = some t → t.valid = W.valid o
  tree : ∀ o t, s.mem.obj (slot o) = some t → t.valid = true → TreeAt (keyOf s.mem.lh) s.mem.nl (C (slot o)) t
  it : ∀ x i, W.it x = some i → ∃ a, (C (slot i.owner))[i.idx]? = some a ∧ s.mem.res x = some ⟨i.db, some a, i.fin⟩

variable {s : State V} {W : World V} {C : Nat → List Nat}

theorem Inv.pic (h : Inv s W C) : ∃ g, Wld g s.mem.lh C ∧ (∀ o x, W.objs o = some x → (C (slot o)).map g.D = x.leaves) ∧
    ∀ o, W.objs o = none → C (slot o) = [] := by
  obtain ⟨-, L, ⟨g, w, hCL⟩, -, hL⟩ := h.rel
  refine ⟨g, w, fun o x hx => ?_, fun o hx => ?_⟩
  · rw [hCL, hL, hx]; rfl
  · have := hCL (slot o)
    rw [hL, hx] at this
    simpa using this

theorem Inv.there (h : Inv s W C) {o : Nat} {x : Obj V} (hx : W.objs o = some x) : ∃ t, s.mem.obj (slot o) = some t :=
  ex_true (by rw [h.exs, hx]; rfl)

theorem keyOf_eq {g : Pic V} {h : Mdds.FST.Mem.Heap V} (w : Wld g h C) {o a : Nat} (ha : a ∈ C o) : keyOf h a = g.K a := by
  unfold keyOf; rw [w.keyAt ha]; rfl

theorem exec_aw {α : Type} {p : Prg V α} {Q : α → Mem V → Prop} (k : α → Ret V) (h : aw p Q s.mem) :
    ∃ a m', s.exec p k = .ok (⟨m', s.init⟩, k a) ∧ Q a m' := by
  obtain ⟨a, m', e, q⟩ := h
  exact ⟨a, m', by simp only [State.exec, e], q⟩

/-- An iterator is kept. -/
theorem Inv.keep (h : Inv s W C) (x : Nat) {p : Option Place} {i : Iter}
    (hp : ∀ pl, p = some pl → ∃ a, (C (slot pl.owner))[pl.idx]? = some a ∧ i = ⟨pl.db, some a, pl.fin⟩) :
    Inv ⟨{ s.mem with res := upd s.mem.res x (some i) }, s.init⟩ { W with it := upd W.it x p } C := by
  refine ⟨h.rel, ⟨h.pools.alive, h.pools.apart, h.pools.only⟩, h.temp, h.exs, h.flag, h.tree, fun y j hj => ?_⟩
  by_cases e : y = x
  · subst e
    have hj : p = some j := by simpa using hj
    obtain ⟨a, ha, rfl⟩ := hp j hj
    exact ⟨a, ha, by simp⟩
  · have hj : W.it y = some j := by simpa [upd, e] using hj
    obtain ⟨a, ha, hr⟩ := h.it y j hj
    exact ⟨a, ha, by simpa [upd, e] using hr⟩

theorem origin_goes {c : Call V} {flag : Bool} {p q : Nat} (h : goes c flag q = some p) : origin c flag p = some q := by
  have hoff : ∀ o, (if q = o then none else some q) = some p → off o p = some q := fun o h => by
    by_cases e : q = o
    · rw [if_pos e] at h; cases h
    · rw [if_neg e] at h; cases h
      simp [off, e]
  have hfrom : ∀ o r, (if q = o then none else if q = r then some o else some q) = some p → r ≠ o → fromTo r o p = some q := fun o r h hn => by
    by_cases e : q = o
    · rw [if_pos e] at h; cases h
    · rw [if_neg e] at h
      by_cases e2 : q = r
      · rw [if_pos e2] at h; cases h
        subst e2
        simp [fromTo, Ne.symm hn]
      · rw [if_neg e2] at h; cases h
        simp [fromTo, e, e2]
  have hcond : ∀ (P : Prop) [Decidable P] o, (if P ∧ q = o then none else some q) = some p → (if P then off o else some) p = some q := by
    intro P _ o h
    by_cases hP : P
    · simp only [hP, true_and] at h
      rw [if_pos hP]; exact hoff o h
    · simp only [hP, false_and, if_false] at h
      rw [if_neg hP]; exact h.symm
  have hcond' : ∀ o, (if flag = false ∧ q = o then none else some q) = some p → (if flag then some else off o) p = some q := by
    intro o h
    have := hcond (flag = false) o h
    cases flag <;> simpa using this
  cases c with
  | make o _ _ _ => exact hoff o h
  | destroy o => exact hoff o h
  | copy o _ => exact hoff o h
  | move o r =>
    simp only [goes] at h
    by_cases e : r = o
    · subst e
      by_cases e : q = r
      · rw [if_pos e] at h; cases h
      · rw [if_neg e, if_neg e] at h; cases h
        simp [origin, fromTo, e]
    · exact hfrom o r h e
  | assignCopy o _ => exact hoff o h
  | assignMove o r =>
    simp only [goes, origin] at h ⊢
    by_cases e : o = r
    · rw [if_pos e] at h ⊢; exact h.symm
    · rw [if_neg e] at h ⊢; exact hfrom o r h (Ne.symm e)
  | swap a b =>
    simp only [goes, origin, exch] at h ⊢
    by_cases e : q = a
    · rw [if_pos e] at h; cases h; simp [e]
    · rw [if_neg e] at h
      by_cases e2 : q = b
      · rw [if_pos e2] at h; cases h
        rw [if_neg (by rw [← e2]; exact Ne.symm e), if_pos rfl, e2]
      · rw [if_neg e2] at h; cases h
        rw [if_neg e2, if_neg e]
  | clear o => exact hoff o h
  | insert o _ _ _ _ => exact hcond _ o h
  | insertAt o _ _ _ _ => exact hcond _ o h
  | shiftLeft o _ _ => exact hcond' o h
  | shiftRight o _ _ _ => exact hcond' o h

section
variable [DecidableEq V]

theorem call_ok (dv : V) (h : Inv s W C) {c : Call V} {W' : World V} {r : Ret V} (hs : specStep dv W (.call c) = .ok (W', r)) :
    ∃ s' C', (Cmd.call c).exec dv s = .ok (s', r) ∧ Inv s' W' C' := by
  simp only [specStep] at hs
  cases e : listStep dv W.objs c with
  | err x => rw [e] at hs; cases hs
  | ub => rw [e] at hs; cases hs
  | ok v =>
    obtain ⟨S', out⟩ := v
    rw [e] at hs
    simp only [Outcome.ok.injEq, Prod.mk.injEq] at hs
    obtain ⟨rfl, rfl⟩ := hs
    obtain ⟨m1, C', e1, r1, mv⟩ := step_addr dv h.rel e
    have hp : Pools { s.mem with lh := m1.heap } := ⟨h.pools.alive, h.pools.apart, h.pools.only⟩
    obtain ⟨_, m2, e2, pc⟩ := aw_poolPart (m := { s.mem with lh := m1.heap }) dv e hp h.temp h.exs
    have hlh : m2.lh = m1.heap := pc.lh
    refine ⟨⟨m2, m1.init⟩, C', ?_, ?_, pc.pools, pc.temp, pc.exs, ?_, ?_, ?_⟩
    · simp only [Cmd.exec, e1, State.exec, e2]
    · rw [hlh]; exact r1
    · intro o t ht
      simp only [validAfter]
      cases ho : origin c out.2 o with
      | none => exact pc.drop o t ho ht
      | some q => exact h.flag q t (by rw [← (pc.keep o q ho).1]; exact ht)
    · intro o t ht hv
      cases ho : origin c out.2 o with
      | none => rw [pc.drop o t ho ht] at hv; cases hv
      | some q =>
        have hk := pc.keep o q ho
        have ht' : s.mem.obj (slot q) = some t := by rw [← ht]; exact hk.1.symm
        obtain ⟨hC, hkey⟩ := mv o q ho
        have hC : C' (slot o) = C (slot q) := hC
        rw [hC]
        refine (h.tree q t ht' hv).congr (fun a ha => ?_) fun p hp => hk.2 t ht' p hp
        unfold keyOf
        rw [hlh, hkey a ha]
    · intro x i hi
      simp only [Option.bind_eq_some_iff, Option.map_eq_some_iff] at hi
      obtain ⟨j, hj, p, hp, rfl⟩ := hi
      obtain ⟨a, ha, hr⟩ := h.it x j hj
      have hC : C' (slot p) = C (slot j.owner) := (mv p j.owner (origin_goes hp)).1
      refine ⟨a, ?_, ?_⟩
      · show (C' (slot p))[j.idx]? = some a
        rw [hC]; exact ha
      · rw [pc.res]; exact hr

end

/-- `m_nonleaf_node_pool.resize(n)` -/
theorem aw_poolResize {m : Mem V} (h : Pools m) {o : Nat} {t : Tree} (ho : m.obj o = some t) (hsz : t.size = 0) (n : Nat)
    {Q : Unit → Mem V → Prop}
    (post : ∀ m', Pools m' → m'.lh = m.lh → m'.res = m.res → m'.obj = upd m.obj o (some { t with base := m.next, size := n }) →
      (∀ p, m.next ≤ p → p < m.next + n → m'.nl p = some Inner.new) → (∀ p, ¬ (m.next ≤ p ∧ p < m.next + n) → m'.nl p = m.nl p) →
      m'.next = m.next + n → Q () m') : aw (poolResize o n) Q m := by
  unfold poolResize
  refine aw_bind (aw_getObj ho (aw_bind ⟨m.next, _, rfl, ?_⟩))
  refine aw_setObj ho (post _ ?_ rfl rfl rfl (fun p h1 h2 => if_pos ⟨h1, h2⟩) (fun p hp => if_neg hp) rfl)
  have hoff : ∀ p x, m.obj p = some x → ∀ q, inPool x q → ¬ (m.next ≤ q ∧ q < m.next + n) := fun p x hx q hq => by
    have := (h.alive p x hx q hq).2
    omega
  refine ⟨fun p x hx q hq => ?_, fun p p' x x' hx hx' hpp q hq hq' => ?_, fun q hq => ?_⟩
  · by_cases e : p = o
    · subst e
      have hx : x = { t with base := m.next, size := n } := by simpa using hx.symm
      subst hx
      have hq : m.next ≤ q ∧ q < m.next + n := hq
      refine ⟨?_, hq.2⟩
      show (if _ then some Inner.new else m.nl q : Option Inner).isSome
      rw [if_pos hq]; rfl
    · have hx : m.obj p = some x := by simpa [upd, e] using hx
      have := h.alive p x hx q hq
      refine ⟨?_, show q < m.next + n by omega⟩
      show (if _ then some Inner.new else m.nl q : Option Inner).isSome
      rw [if_neg (hoff p x hx q hq)]; exact this.1
  · by_cases e : p = o
    · subst e
      have hx : x = { t with base := m.next, size := n } := by simpa using hx.symm
      subst hx
      exact hoff p' x' (by simpa [upd, Ne.symm hpp] using hx') q hq' hq
    · by_cases e' : p' = o
      · subst e'
        have hx' : x' = { t with base := m.next, size := n } := by simpa using hx'.symm
        subst hx'
        exact hoff p x (by simpa [upd, e] using hx) q hq hq'
      · exact h.apart p p' x x' (by simpa [upd, e] using hx) (by simpa [upd, e'] using hx') hpp q hq hq'
  · have hq : (if m.next ≤ q ∧ q < m.next + n then some Inner.new else m.nl q : Option Inner).isSome := hq
    by_cases e : m.next ≤ q ∧ q < m.next + n
    · exact ⟨o, { t with base := m.next, size := n }, upd_same _ _ _, e⟩
    · rw [if_neg e] at hq
      obtain ⟨p, x, hx, hxq⟩ := h.only q hq
      have hpo : p ≠ o := by
        rintro rfl
        rw [ho] at hx; cases hx
        exact not_inPool hsz q hxq
      exact ⟨p, x, by simpa [upd, hpo] using hx, hxq⟩

/-- What `build_tree` leaves behind. -/
structure Built (o : Nat) (C : Nat → List Nat) (g : Pic V) (m m' : Mem V) : Prop where
  pools : Pools m'
  res : m'.res = m.res
  obj : ∃ t, m'.obj = upd m.obj o (some t) ∧ t.valid = true ∧ TreeAt g.K m'.nl (C o) t
  others : ∀ p t, p ≠ o → m.obj p = some t → ∀ q, inPool t q → m'.nl q = m.nl q
  pic : ∃ g', Wld g' m'.lh C ∧ g'.K = g.K ∧ g'.W = g.W

theorem aw_buildP {m : Mem V} {g : Pic V} (h : Pools m) (w : Wld g m.lh C) {o : Nat} {t : Tree} (ho : m.obj o = some t)
    (h2 : 2 ≤ (C o).length) : aw (buildP o) (fun _ m' => Built o C g m m') m := by
  unfold buildP
  refine aw_bind (aw_leaves (wp_get w.sat ?_))
  rw [w.left]
  cases hl : (C o).head? with
  | none => rw [List.head?_eq_none_iff.1 hl] at h2; simp at h2
  | some a =>
    refine aw_bind (aw_poolClear h ho fun m1 p1 e1 e2 e3 e4 e5 => ?_)
    have ho1 : m1.obj o = some { t with base := 0, size := 0 } := by rw [e3]; simp
    have w1 : Wld g m1.lh C := by rw [e1]; exact w
    refine aw_bind (aw_leaves (wp_countLeaves (w1.st o) ?_))
    rw [if_neg (by rintro hc; rw [hc] at h2; simp at h2)]
    refine aw_bind (aw_poolResize p1 ho1 rfl (needed (C o).length) fun m2 p2 f1 f2 f3 f4 f5 f6 => ?_)
    simp only at f1 f2 f3 f4 f5 f6
    have ho2 : m2.obj o = some { t with base := m1.next, size := needed (C o).length } := by rw [f3]; simp
    have w2 : Wld g m2.lh C := by rw [f1]; exact w1
    refine aw_bind (aw_getObj ho2 ?_)
    refine aw_bind (aw_mono (aw_build (as := C o) h2 (w2.st o) rfl f4) fun r m3 hb => ?_)
    obtain ⟨h3, nl3, g3, S, rfl, st3, hK, hW, hS, rfl, hheld, hfill⟩ := hb
    have w3 : Wld g3 h3 C := by
      have := (w2.put st3).1
      rwa [show upd C o (C o) = C from by funext y; by_cases e : y = o <;> simp [upd, e]] at this
    refine aw_setObj ho2 ⟨?_, ?_, ⟨⟨m1.next, needed (C o).length, some S.addr, true⟩, ?_, rfl, ?_⟩, fun p x hp hx q hq => ?_, g3, w3, hK, hW⟩
    · have hp : Pools { m2 with lh := h3, nl := nl3 } := by
        have hin : ∀ q, (nl3 q).isSome = (m2.nl q).isSome := fun q => by
          by_cases hq : m1.next ≤ q ∧ q < m1.next + needed (C o).length
          · obtain ⟨n, hn, -⟩ := hfill.on q hq.1 hq.2
            rw [hn, f4 q hq.1 hq.2]; rfl
          · rw [hfill.off q hq]
        refine ⟨fun p x hx q hq => ?_, p2.apart, fun q hq => p2.only q ?_⟩
        · have := p2.alive p x hx q hq
          exact ⟨by show (nl3 q).isSome; rw [hin]; exact this.1, this.2⟩
        · rw [← hin]; exact hq
      exact hp.set ho2 rfl rfl
    · exact f2.trans e2
    · show upd m2.obj o _ = upd m.obj o _
      rw [f3, e3]
      funext p
      by_cases e : p = o
      · subst e; simp
      · simp [upd, e]
    · exact ⟨h2, rfl, S, hS, hheld, rfl⟩
    · have hx1 : m1.obj p = some x := by rw [e3, upd_ne _ _ hp]; exact hx
      have hb := (p1.alive p x hx1 q hq).2
      show nl3 q = m.nl q
      rw [hfill.off q (fun hq' => by have h1 : m1.next ≤ q := hq'.1; omega), f5 q (by omega), e4 q (h.apart p o x t hx ho hp q hq)]

section
variable [DecidableEq V]

theorem build_ok (dv : V) (h : Inv s W C) (g : AllGood dv W.objs) {o : Nat} {W' : World V} {r : Ret V}
    (hs : specStep dv W (.build o) = .ok (W', r)) : ∃ s' C', (Cmd.build o).exec dv s = .ok (s', r) ∧ Inv s' W' C' := by
  simp only [specStep] at hs
  cases ho : W.objs o with
  | none => rw [ho] at hs; cases hs
  | some x =>
    rw [ho] at hs
    simp only [Outcome.ok.injEq, Prod.mk.injEq] at hs
    obtain ⟨rfl, rfl⟩ := hs
    obtain ⟨pic, w, hD, hN⟩ := h.pic
    obtain ⟨t, ht⟩ := h.there ho
    by_cases hl : x.leaves = []
    · have hC : C (slot o) = [] := by have := hD o x ho; rw [hl] at this; simpa using this
      have : aw (do let _ ← (Mdds.SegTree.Mem.getObj (slot o) : Prg V Tree); buildP (slot o)) (fun _ m' => m' = s.mem) s.mem := by
        refine aw_bind (aw_getObj ht ?_)
        unfold buildP
        refine aw_bind (aw_leaves (wp_get w.sat ?_))
        rw [w.left, hC]
        exact aw_ret rfl
      obtain ⟨-, m', e, rfl⟩ := exec_aw (fun _ => Ret.nothing) this
      refine ⟨⟨s.mem, s.init⟩, C, e, h.rel, h.pools, h.temp, h.exs, fun p u hu => ?_, h.tree, h.it⟩
      rw [h.flag p u hu]
      by_cases hp : p = o
      · subst hp
        simp only [upd_same, hl]
        cases hv : W.valid p with
        | false => simp
        | true =>
          have := (h.tree p u hu (by rw [h.flag p u hu, hv])).1
          rw [hC] at this; simp at this
      · show W.valid p = upd W.valid o _ p
        rw [upd_ne _ _ hp]
    · have h2 : 2 ≤ (C (slot o)).length := by
        have h3 := (g o x ho).two hl
        have := congrArg List.length (hD o x ho)
        simp at this
        omega
      obtain ⟨-, m', e, b⟩ := exec_aw (fun _ => Ret.nothing)
        (p := do let _ ← (Mdds.SegTree.Mem.getObj (slot o) : Prg V Tree); buildP (slot o))
        (aw_bind (aw_getObj ht (aw_buildP h.pools w ht h2)))
      obtain ⟨u, hu, hv, htr⟩ := b.obj
      obtain ⟨g', w', hK, hW⟩ := b.pic
      have hkey : ∀ p, ∀ a ∈ C p, keyOf m'.lh a = keyOf s.mem.lh a := fun p a ha => by
        rw [keyOf_eq w ha, keyOf_eq w' ha, hK]
      have hDD : g'.D = pic.D := by funext a; simp [Pic.D, hK, hW]
      refine ⟨⟨m', s.init⟩, C, e, ⟨h.rel.init, ?_⟩, b.pools, ?_, fun p => ?_, fun p t' ht' => ?_, fun p t' ht' hv' => ?_, fun y i hi => ?_⟩
      · obtain ⟨L, ⟨g1, w1, hCL⟩, h0, hL⟩ := h.rel.heap
        refine ⟨L, ⟨g', w', fun p => ?_⟩, h0, hL⟩
        rw [hDD, ← hCL]
        refine List.map_congr_left fun a ha => ?_
        obtain ⟨n, hn⟩ := Option.isSome_iff_exists.1 (w.live ha)
        have k1 := w.sat.node a n hn
        have k2 := w1.sat.node a n hn
        simp only [Pic.D]
        rw [← k1.2.2.1, ← k1.2.2.2.1, k2.2.2.1, k2.2.2.2.1]
      · have := h.temp
        unfold ex at this ⊢
        rw [hu, upd_ne _ _ (Ne.symm (slot_ne o))]
        exact this
      · have := h.exs p
        unfold ex at this ⊢
        rw [hu]
        by_cases hp : p = o
        · subst hp; simp [ho]
        · rw [upd_ne _ _ (fun e => hp (slot_inj e))]; exact this
      · have ht' : m'.obj (slot p) = some t' := ht'
        rw [hu] at ht'
        by_cases hp : p = o
        · subst hp
          rw [upd_same] at ht'; cases ht'
          simp [hv, hl]
        · rw [upd_ne _ _ (fun e => hp (slot_inj e))] at ht'
          rw [h.flag p t' ht']
          simp [upd, hp]
      · have ht' : m'.obj (slot p) = some t' := ht'
        rw [hu] at ht'
        by_cases hp : p = o
        · subst hp
          rw [upd_same] at ht'; cases ht'
          exact htr.congr (fun a ha => by rw [keyOf_eq w' ha, hK]) fun _ _ => rfl
        · have hps : slot p ≠ slot o := fun e => hp (slot_inj e)
          rw [upd_ne _ _ hps] at ht'
          exact (h.tree p t' ht' hv').congr (fun a ha => hkey _ a ha) (b.others _ t' hps ht')
      · obtain ⟨a, ha, hr⟩ := h.it y i hi
        exact ⟨a, ha, by rw [b.res]; exact hr⟩

theorem good_wf {dv : V} {x : Obj V} (g : Mdds.FST.Mem.Good dv x) (hn : x.leaves ≠ []) : ∃ lo hi, WF lo hi dv x.leaves := by
  rcases g with h | ⟨lo, hi, st, h, e⟩
  · exact absurd h hn
  · exact ⟨lo, hi, e ▸ h.inv.wf⟩

omit [DecidableEq V] in
theorem aw_endIter {m : Mem V} {g : Pic V} (w : Wld g m.lh C) (o : Nat) {Q : Iter → Mem V → Prop}
    (q : Q ⟨o, (C (slot o)).getLast?, true⟩ m) : aw (endIter o) Q m := by
  unfold endIter
  refine aw_bind (aw_leaves (wp_get w.sat ?_))
  rw [w.right]
  exact aw_pure q

omit [DecidableEq V] in
theorem aw_recall {m : Mem V} {x : Nat} {i : Iter} (hr : m.res x = some i) {Q : Iter → Mem V → Prop} (q : Q i m) : aw (recall x) Q m :=
  ⟨i, m, by simp only [recall, hr], q⟩

omit [DecidableEq V] in
theorem end_place {g : Pic V} {o : Nat} {ls : List (Leaf V)} (hD : (C (slot o)).map g.D = ls) :
    ∀ pl, resultPlace o ls (none : Option (Hit V)) = some pl → ∃ a, (C (slot pl.owner))[pl.idx]? = some a ∧
      (⟨o, (C (slot o)).getLast?, true⟩ : Iter) = ⟨pl.db, some a, pl.fin⟩ := by
  intro pl h
  simp only [resultPlace] at h
  by_cases hl : ls = []
  · rw [if_pos hl] at h; cases h
  · rw [if_neg hl] at h; cases h
    have hC : C (slot o) ≠ [] := by intro e; rw [e] at hD; exact hl hD.symm
    refine ⟨(C (slot o)).getLast hC, ?_, by rw [List.getLast?_eq_some_getLast hC]⟩
    have : ls.length = (C (slot o)).length := by rw [← hD]; simp
    show (C (slot o))[ls.length - 1]? = _
    rw [this, ← List.getLast?_eq_getElem?, List.getLast?_eq_some_getLast hC]

theorem find_ok (dv : V) (h : Inv s W C) (g : AllGood dv W.objs) {x o : Nat} {key : Int} {W' : World V} {r : Ret V}
    (hs : specStep dv W (.find x o key) = .ok (W', r)) : ∃ s' C', (Cmd.find x o key).exec dv s = .ok (s', r) ∧ Inv s' W' C' := by
  simp only [specStep] at hs
  cases ho : W.objs o with
  | none => rw [ho] at hs; cases hs
  | some ob =>
    rw [ho] at hs
    simp only [Outcome.ok.injEq, Prod.mk.injEq] at hs
    obtain ⟨rfl, rfl⟩ := hs
    obtain ⟨pic, w, hD, hN⟩ := h.pic
    obtain ⟨t, ht⟩ := h.there ho
    have hd := hD o ob ho
    have hleaf : aw (treeLeafP (slot o) key) (fun r m' => m' = s.mem ∧
        r = (if W.valid o then segmentAt key 0 ob.leaves else none).bind fun h => (C (slot o))[h.idx]?) s.mem := by
      cases hv : W.valid o with
      | true =>
        have htv : t.valid = true := by rw [h.flag o t ht, hv]
        have htr := h.tree o t ht htv
        have hl : ob.leaves ≠ [] := by
          intro e; rw [e] at hd
          have := htr.1
          simp at hd; rw [hd] at this; simp at this
        obtain ⟨lo, hi, wf⟩ := good_wf (g o ob ho) hl
        have := aw_treeLeafP w ht htv (htr.congr (fun a ha => (keyOf_eq w ha).symm) fun _ _ => rfl) (hd ▸ wf) key
        rw [hd] at this
        simpa using this
      | false =>
        have htv : t.valid = false := by rw [h.flag o t ht, hv]
        unfold treeLeafP
        refine aw_bind (aw_getObj ht ?_)
        rw [htv]
        cases t.root <;> exact aw_pure ⟨rfl, by simp⟩
    have key : aw (findP x o key) (fun f m' => f = report (if W.valid o then segmentAt key 0 ob.leaves else none) ∧
        Inv ⟨m', s.init⟩ { W with it := upd W.it x (resultPlace o ob.leaves (if W.valid o then segmentAt key 0 ob.leaves else none)) } C)
        s.mem := by
      unfold findP
      refine aw_bind (aw_mono hleaf fun r m1 hr => ?_)
      obtain ⟨rfl, rfl⟩ := hr
      cases hh : (if W.valid o then segmentAt key 0 ob.leaves else none) with
      | none =>
        simp only [Option.bind_none]
        exact aw_bind (aw_endIter w o (aw_bind ⟨(), _, rfl, aw_pure ⟨rfl, h.keep x (end_place hd)⟩⟩))
      | some ht' =>
        have hseg : segmentAt key 0 ob.leaves = some ht' := by
          cases hv : W.valid o <;> rw [hv] at hh <;> simp at hh
          exact hh
        have hl : ob.leaves ≠ [] := by rintro e; rw [e] at hseg; cases hseg
        obtain ⟨lo, hi, wf⟩ := good_wf (g o ob ho) hl
        rcases segmentAt_wf (key := key) wf with ⟨-, -, j, a, b, ha, hb, -, -, e⟩ | ⟨-, e⟩
        · rw [hseg] at e; cases e
          obtain ⟨p, hp, -, -⟩ := of_leaf_at (g := pic) (as := C (slot o)) (by rw [hd]; exact ha)
          simp only [Option.bind_some, hp]
          refine aw_bind (aw_leaves (wp_reportP w hp (by rw [hd]; exact ha) (by rw [hd]; exact hb) ?_))
          refine aw_bind ⟨(), _, rfl, ?_⟩
          refine aw_pure ⟨rfl, h.keep x fun pl hpl => ?_⟩
          simp only [resultPlace, Option.some.injEq] at hpl
          subst hpl
          exact ⟨p, hp, rfl⟩
        · rw [hseg] at e; cases e
    obtain ⟨f, m', e, rfl, hi⟩ := exec_aw Ret.found key
    exact ⟨_, C, e, hi⟩

theorem scan_ok (dv : V) (h : Inv s W C) (g : AllGood dv W.objs) {x o : Nat} {key : Int} {hint : Option Nat} {W' : World V} {r : Ret V}
    (hs : specStep dv W (.scan x o key hint) = .ok (W', r)) :
    ∃ s' C', (Cmd.scan x o key hint).exec dv s = .ok (s', r) ∧ Inv s' W' C' := by
  simp only [specStep] at hs
  cases ho : W.objs o with
  | none => rw [ho] at hs; cases hs
  | some ob =>
    rw [ho] at hs
    simp only at hs
    split at hs
    · cases hs
    · rename_i hc
      rw [not_or, not_not] at hc
      obtain ⟨hl, hhint⟩ := hc
      simp only [Outcome.ok.injEq, Prod.mk.injEq] at hs
      obtain ⟨rfl, rfl⟩ := hs
      obtain ⟨pic, w, hD, hN⟩ := h.pic
      obtain ⟨t, ht⟩ := h.there ho
      have hd := hD o ob ho
      obtain ⟨lo, hi, wf⟩ := good_wf (g o ob ho) hl
      have hpos : aw (hintPos o hint) (fun p m' => m' = s.mem ∧ ∀ a, p = some a → ∃ j : Nat, (C (slot o))[j]? = some a) s.mem := by
        cases hint with
        | none => exact aw_ret ⟨rfl, fun a e => by cases e⟩
        | some y =>
          obtain ⟨i, hi, hio⟩ := hhint
          obtain ⟨a, ha, hr⟩ := h.it y i hi
          unfold hintPos
          refine aw_bind (aw_recall hr ?_)
          refine aw_pure ⟨rfl, fun b hb => ?_⟩
          by_cases e : i.db = o
          · simp only [e, if_true, Option.some.injEq] at hb
            subst hb
            exact ⟨i.idx, by rw [← hio e]; exact ha⟩
          · simp [e] at hb
      have key : aw (do let _ ← (Mdds.SegTree.Mem.getObj (slot o) : Prg V Tree); scanP x o key hint)
          (fun f m' => f = report (segmentAt key 0 ob.leaves) ∧
          Inv ⟨m', s.init⟩ { W with it := upd W.it x (resultPlace o ob.leaves (segmentAt key 0 ob.leaves)) } C) s.mem := by
        refine aw_bind (aw_getObj ht ?_)
        unfold scanP
        refine aw_bind (aw_mono hpos fun p m1 hp => ?_)
        obtain ⟨rfl, hp⟩ := hp
        refine aw_bind (aw_leaves (wp_searchP w (hd ▸ wf) key hp fun f h1 h2 => ?_))
        rw [hd] at h1 h2
        cases hh : segmentAt key 0 ob.leaves with
        | none =>
          rw [h1 hh]
          exact aw_bind (aw_endIter w o (aw_bind ⟨(), _, rfl, aw_pure ⟨rfl, h.keep x (end_place hd)⟩⟩))
        | some ht' =>
          obtain ⟨b, hb, rfl⟩ := h2 ht' hh
          refine aw_bind ⟨(), _, rfl, ?_⟩
          refine aw_pure ⟨rfl, h.keep x fun pl hpl => ?_⟩
          simp only [resultPlace, Option.some.injEq] at hpl
          subst hpl
          exact ⟨b, hb, rfl⟩
      obtain ⟨f, m', e, rfl, hi⟩ := exec_aw Ret.found key
      exact ⟨_, C, e, hi⟩

theorem begin_ok (dv : V) (h : Inv s W C) {x o : Nat} {W' : World V} {r : Ret V}
    (hs : specStep dv W (.begin x o) = .ok (W', r)) : ∃ s' C', (Cmd.begin x o).exec dv s = .ok (s', r) ∧ Inv s' W' C' := by
  simp only [specStep] at hs
  cases ho : W.objs o with
  | none => rw [ho] at hs; cases hs
  | some ob =>
    rw [ho] at hs
    simp only [Outcome.ok.injEq, Prod.mk.injEq] at hs
    obtain ⟨rfl, rfl⟩ := hs
    obtain ⟨pic, w, hD, hN⟩ := h.pic
    obtain ⟨t, ht⟩ := h.there ho
    have hd := hD o ob ho
    have key : aw (do let _ ← (Mdds.SegTree.Mem.getObj (slot o) : Prg V Tree); beginP x o)
        (fun _ m' => Inv ⟨m', s.init⟩ { W with it := upd W.it x (if ob.leaves = [] then none else some ⟨o, o, 0, false⟩) } C) s.mem := by
      refine aw_bind (aw_getObj ht ?_)
      unfold beginP
      refine aw_bind (aw_leaves (wp_get w.sat ?_))
      rw [w.left]
      refine ⟨(), _, rfl, h.keep x fun pl hpl => ?_⟩
      by_cases hl : ob.leaves = []
      · rw [if_pos hl] at hpl; cases hpl
      · rw [if_neg hl] at hpl; cases hpl
        cases hC : C (slot o) with
        | nil => rw [hC] at hd; exact absurd hd.symm hl
        | cons a as => exact ⟨a, by simp [hC], rfl⟩
    obtain ⟨f, m', e, hi⟩ := exec_aw (fun _ => Ret.nothing) key
    exact ⟨_, C, e, hi⟩

theorem next_ok (dv : V) (h : Inv s W C) {x : Nat} {W' : World V} {r : Ret V}
    (hs : specStep dv W (.next x) = .ok (W', r)) : ∃ s' C', (Cmd.next x).exec dv s = .ok (s', r) ∧ Inv s' W' C' := by
  simp only [specStep] at hs
  cases hx : W.it x with
  | none => rw [hx] at hs; cases hs
  | some i =>
    rw [hx] at hs
    simp only at hs
    split at hs
    · rename_i hdb
      cases ho : W.objs i.owner with
      | none => rw [ho] at hs; cases hs
      | some ob =>
        rw [ho] at hs
        simp only [Outcome.ok.injEq, Prod.mk.injEq] at hs
        obtain ⟨rfl, rfl⟩ := hs
        obtain ⟨pic, w, hD, hN⟩ := h.pic
        obtain ⟨t, ht⟩ := h.there ho
        have hd := hD _ ob ho
        have hlen : ob.leaves.length = (C (slot i.owner)).length := by rw [← hd]; simp
        obtain ⟨a, ha, hr⟩ := h.it x i hx
        have hidx := (List.getElem?_eq_some_iff.1 ha).1
        have key : aw (nextP x) (fun _ m' => Inv ⟨m', s.init⟩ { W with it := upd W.it x (some (if i.idx + 1 = ob.leaves.length then { i with fin := true }
              else { i with idx := i.idx + 1 })) } C) s.mem := by
          unfold nextP
          refine aw_bind (aw_recall hr ?_)
          simp only
          rw [hdb]
          refine aw_bind (aw_getObj ht (aw_bind (aw_leaves (wp_get w.sat ?_))))
          rw [w.right]
          by_cases e : i.idx + 1 = ob.leaves.length
          · rw [if_pos e]
            have hlast : (C (slot i.owner)).getLast? = some a := by
              rw [List.getLast?_eq_getElem?, ← ha]; congr 1; omega
            rw [if_pos hlast.symm]
            refine ⟨(), _, rfl, h.keep x fun pl hpl => ?_⟩
            cases hpl
            exact ⟨a, ha, by simp [hdb]⟩
          · rw [if_neg e]
            obtain ⟨b, hb⟩ : ∃ b, (C (slot i.owner))[i.idx + 1]? = some b := ⟨_, List.getElem?_eq_getElem (by omega)⟩
            have hlast : ¬ (some a = (C (slot i.owner)).getLast?) := by
              intro e2
              rw [List.getLast?_eq_getElem?] at e2
              obtain ⟨_, ha'⟩ := List.getElem?_eq_some_iff.1 ha
              obtain ⟨hj, e2⟩ := List.getElem?_eq_some_iff.1 e2.symm
              have := (w.nodup (slot i.owner)).getElem_inj_iff.1 (ha'.trans e2.symm)
              omega
            rw [if_neg hlast]
            refine aw_bind (aw_leaves (wp_nonnull rfl ?_))
            refine aw_bind (aw_leaves (wp_getNext w.sat (w.live (List.mem_of_getElem? ha)) ?_))
            rw [next_at w ha, hb]
            refine ⟨(), _, rfl, h.keep x fun pl hpl => ?_⟩
            cases hpl
            exact ⟨b, hb, by simp [hdb]⟩
        obtain ⟨f, m', e, hi⟩ := exec_aw (fun _ => Ret.nothing) key
        exact ⟨_, C, e, hi⟩
    · cases hs

theorem look_ok (dv : V) (h : Inv s W C) {x : Nat} {W' : World V} {r : Ret V}
    (hs : specStep dv W (.look x) = .ok (W', r)) : ∃ s' C', (Cmd.look x).exec dv s = .ok (s', r) ∧ Inv s' W' C' := by
  simp only [specStep] at hs
  cases hx : W.it x with
  | none => rw [hx] at hs; cases hs
  | some i =>
    rw [hx] at hs
    simp only at hs
    cases ho : W.objs i.owner with
    | none => rw [ho] at hs; cases hs
    | some ob =>
      rw [ho] at hs
      simp only at hs
      cases hl : ob.leaves[i.idx]? with
      | none => rw [hl] at hs; cases hs
      | some l =>
        rw [hl] at hs
        simp only [Outcome.ok.injEq, Prod.mk.injEq] at hs
        obtain ⟨rfl, rfl⟩ := hs
        obtain ⟨pic, w, hD, hN⟩ := h.pic
        obtain ⟨a, ha, hr⟩ := h.it x i hx
        have hla : pic.D a = l := by
          have := leaf_at (g := pic) ha
          rw [hD _ ob ho, hl] at this
          exact (Option.some.inj this).symm
        have la := w.live (List.mem_of_getElem? ha)
        have key : aw (lookP x) (fun f m' => f = l ∧ m' = s.mem) s.mem := by
          unfold lookP
          refine aw_bind (aw_recall hr ?_)
          refine aw_bind (aw_leaves (wp_nonnull rfl ?_))
          refine aw_bind (aw_leaves (wp_getKey w.sat la ?_))
          refine aw_bind (aw_leaves (wp_getVal w.sat la ?_))
          exact aw_pure ⟨hla, rfl⟩
        obtain ⟨f, m', e, rfl, rfl⟩ := exec_aw Ret.leaf key
        exact ⟨_, C, e, h⟩

theorem step_ok (dv : V) (h : Inv s W C) (g : AllGood dv W.objs) {c : Cmd V} {W' : World V} {r : Ret V}
    (hs : specStep dv W c = .ok (W', r)) : ∃ s' C', c.exec dv s = .ok (s', r) ∧ Inv s' W' C' := by
  cases c with
  | call c => exact call_ok dv h hs
  | build o => exact build_ok dv h g hs
  | find x o key => exact find_ok dv h g hs
  | scan x o key hint => exact scan_ok dv h g hs
  | begin x o => exact begin_ok dv h hs
  | next x => exact next_ok dv h hs
  | look x => exact look_ok dv h hs

end

end Mdds.FST.Pool
