import Verif.SegTree.HeapWorld

/-!
# Member functions in memory

Every member function keeps memory in order and does to the container what the function of
`Model.lean` does to its value.
-/
namespace Mdds.SegTree.Mem

open Mdds.FST.Mem hiding Path

variable {V : Type} {dv : V} {o : Nat} {C : Nat → List Nat} {m : Mem V} {g : Pic Chain} {slot : Nat → Slot V}
  {rs : Nat → Option (Nat × List Nat)}

theorem WX.reC (h : WX dv o C m g slot rs) {C' : Nat → List Nat} (hC : ∀ p, p ≠ o → C' p = C p) : WX dv o C' m g slot rs :=
  ⟨fun p hp => by rw [hC p hp]; exact h.rel p hp, h.alive, h.apart, h.only, fun x p is hp e => by
    rw [hC p hp]; exact h.res x p is hp e⟩

theorem inner_ext {n n' : Inner} (h1 : strip n' = strip n) (h2 : n'.chain = n.chain) : n' = n := by
  cases n; cases n'
  simp_all [strip]

/-- Chains of nodes of container `o` have changed. -/
theorem WX.ch (h : WX dv o C m g slot rs) {ob : Obj V} (ho : m.obj o = some ob) {m' : Mem V} {g' : Pic Chain} (c : Ch C m g m' g')
    {S : Shape} (hl : ∀ a ∈ S.leaves, a ∈ C o) (hi : ∀ p ∈ S.inners, inPool ob p)
    (hoff : ∀ q, ¬ S.Has q → chm g'.W m'.nl q = chm g.W m.nl q) : WX dv o C m' g' slot rs := by
  have h1 : WX dv o C { m with lh := m'.lh } g' slot rs := (h.lh m'.lh).pic fun p hp a ha => by
    refine ⟨by rw [c.K], ?_⟩
    exact hoff (.leaf a) fun hs => c.wld.disj p o hp a ha (hl a hs)
  have h2 := h1.nodes (nl' := m'.nl) (ob := ob) ho (fun q hq => ?_) (fun q hq => ?_)
  · rw [c.mem]; exact h2
  · have e1 := c.strip q
    have e2 := hoff (.inner q) fun hs => hq (hi q hs)
    simp only [chm] at e2
    show m'.nl q = m.nl q
    cases f1 : m'.nl q with
    | none =>
      cases f2 : m.nl q with
      | none => rfl
      | some n => rw [f1, f2] at e1; simp at e1
    | some n' =>
      cases f2 : m.nl q with
      | none => rw [f1, f2] at e1; simp at e1
      | some n =>
        rw [f1, f2] at e1 e2
        simp only [Option.map_some, Option.some.injEq, Option.bind_some] at e1 e2
        rw [inner_ext e1 e2]
  · rw [c.isSome]; exact (h.alive o ob ho q hq).1

section
variable [DecidableEq V]

theorem two_keys {segs : List (Seg V)} (h : ∀ s ∈ segs, s.start < s.stop) (hne : segs ≠ []) :
    2 ≤ (sortUnique (rawKeys segs)).length := by
  obtain ⟨s, segs, rfl⟩ := List.exists_cons_of_ne_nil hne
  have h1 : s.start ∈ sortUnique (rawKeys (s :: segs)) := (mem_sortUnique _ _).2 (by simp [rawKeys])
  have h2 : s.stop ∈ sortUnique (rawKeys (s :: segs)) := (mem_sortUnique _ _).2 (by simp [rawKeys])
  have h3 := h s (by simp)
  match e : sortUnique (rawKeys (s :: segs)), h1, h2 with
  | [], h1, _ => simp at h1
  | [x], h1, h2 => simp at h1 h2; omega
  | _ :: _ :: _, _, _ => simp

theorem WX.aw_buildTree (h : WX dv o C m g slot rs) (w : Wld g m.lh C) {ob : Obj V} (ho : m.obj o = some ob) (hlen : (C o).length ≠ 1)
    {st : State V} (hwf : ∀ s ∈ st.store, s = deleted dv ∨ s.start < s.stop) (hst : ob.store = st.store)
    (htag : st.tagged = [] → ob.tagged = []) :
    aw (buildTreeP dv o) (fun _ m' => ∃ g' as ob', WX dv o (upd C o as) m' g' slot rs ∧ Wld g' m'.lh (upd C o as) ∧
      m'.obj o = some ob' ∧ m'.res = m.res ∧ CRel dv g'.W g'.K m'.nl as ob' (buildTree dv st)) m := by
  have hinv : Inv dv (buildTree dv st) := buildTree_inv dv { st with valid := false } ⟨hwf, by simp⟩
  have hlt : ∀ s ∈ live dv st, s.start < s.stop := fun s hs => by
    simp only [live, List.mem_filter, decide_eq_true_eq] at hs
    rcases hwf s hs.1 with h1 | h1
    · exact absurd h1 hs.2
    · exact h1
  have hsegs : (ob.store.filter fun s => decide (s ≠ deleted dv)) = live dv st := by rw [hst]; rfl
  unfold buildTreeP
  refine aw_bind (aw_getObj ho ?_)
  simp only [hsegs]
  refine aw_bind (h.aw_setObj (x := { ob with valid := false, store := live dv st }) ho rfl rfl fun hx1 => ?_)
  refine aw_bind (aw_leaves (wp_disc (w.st o) hlen fun g1 h1 d => ?_))
  refine aw_bind (aw_leaves (wp_mono (wp_createLeaves (w.env o) d (sortUnique (rawKeys (live dv st)))) fun _ h2 hc => ?_))
  obtain ⟨g2, as, st2⟩ := hc
  obtain ⟨hx2, w2⟩ := hx1.putLeaves w st2
  have hx2 := hx2.reC (C' := upd C o as) fun p hp => upd_ne _ _ hp
  have hdata := st2.data
  have hkeys : as.map g2.K = sortUnique (rawKeys (live dv st)) := by
    have := congrArg (List.map Prod.fst) hdata
    simpa [Pic.D, Function.comp_def] using this
  have hnoch : ∀ a ∈ as, g2.W a = none := fun a ha => by
    have : g2.D a ∈ as.map g2.D := List.mem_map_of_mem ha
    rw [hdata] at this
    simp only [List.mem_map] at this
    obtain ⟨x, _, hx⟩ := this
    exact (congrArg Prod.snd hx).symm
  have hlas : as.length = (sortUnique (rawKeys (live dv st))).length := by rw [← hkeys]; simp
  refine aw_bind (hx2.aw_poolClear (ob := { ob with valid := false, store := live dv st }) (by simp) fun m3 hx3 ho3 e3 er3 => ?_)
  refine aw_bind (aw_getObj ho3 ?_)
  refine aw_bind (hx3.aw_setObj (x := ⟨live dv st, 0, 0, none, ob.tagged, false⟩) ho3 rfl rfl
    fun hx4 => ?_)
  have w3 : Wld g2 m3.lh (upd C o as) := by rw [e3]; exact w2
  refine aw_bind (aw_leaves (wp_get w3.sat ?_))
  rw [w3.left, upd_same]
  by_cases he : live dv st = []
  · have hk : sortUnique (rawKeys (live dv st)) = [] := by rw [he]; rfl
    have has : as = [] := by simpa [hk] using hkeys
    subst has
    refine aw_ret ⟨g2, [], ⟨live dv st, 0, 0, none, ob.tagged, false⟩, hx4, w3, by simp, er3, ?_⟩
    have hb : buildTree dv st = { store := live dv st, root := none, leaves := [], tagged := st.tagged, valid := false } := by
      unfold buildTree
      simp only [hk]
      rfl
    rw [hb] at hinv ⊢
    exact ⟨rfl, rfl, rfl, fun t ht => by simp at ht, fun _ ht => htag ht, hinv, by simp⟩
  · have h2 : 2 ≤ as.length := by rw [hlas]; exact two_keys hlt he
    obtain ⟨a0, as', rfl⟩ := List.exists_cons_of_ne_nil (l := as) (by rintro rfl; simp at h2)
    simp only [List.head?_cons]
    generalize has : a0 :: as' = as at *
    have hne : as ≠ [] := by rintro rfl; simp at h2
    have st3 := w3.st o
    rw [upd_same] at st3
    refine aw_bind (aw_leaves (wp_countLeaves st3 ?_))
    rw [if_neg hne]
    refine aw_bind (hx4.aw_poolResize (ob := ⟨live dv st, 0, 0, none, ob.tagged, false⟩) (by simp)
      rfl (needed as.length) fun m5 hx5 ho5 e5 er5 hnew5 => ?_)
    simp only at ho5 e5 er5 hnew5
    refine aw_bind (aw_getObj ho5 ?_)
    have w5 : Wld g2 m5.lh (upd C o as) := by rw [e5]; exact w3
    have st5 := w5.st o
    rw [upd_same] at st5
    refine aw_bind (aw_mono (aw_build h2 st5 rfl hnew5) fun r m6 hb => ?_)
    obtain ⟨h6, nl6, g6, S, rfl, st6, hK6, hW6, hS, rfl, hheld, hfill⟩ := hb
    obtain ⟨S', hS', hleaves, hperm⟩ := buildS_ok m3.next (as.map fun a => (a, g2.K a)) (by simpa using h2)
    rw [hS] at hS'
    cases hS'
    simp only [List.map_map, Function.comp_def, List.map_id', List.length_map] at hleaves hperm
    have hview : buildNodes (sortUnique (rawKeys (live dv st))) = some (view noCh S) := by
      rw [← hkeys, ← show ((as.map fun a => (a, g2.K a)).map Prod.snd) = as.map g2.K by simp [Function.comp_def],
        ← view_buildS m3.next, hS]
      rfl
    have hx6 := (hx5.lh h6).nodes (nl' := nl6) ho5 (fun q hq => hfill.off q hq) (fun q hq => by
      obtain ⟨n, hn, _⟩ := hfill.on q hq.1 hq.2
      rw [hn]; rfl)
    have hx6 := hx6.pic (g' := g6) fun p hp a ha => by rw [hK6, hW6]; exact ⟨rfl, rfl⟩
    have w6 : Wld g6 h6 (upd C o as) := by
      have := (w5.put st6).1
      rw [show upd (upd C o as) o as = upd C o as from by funext y; by_cases e : y = o <;> simp [upd, e]] at this
      exact this
    refine aw_bind (hx6.aw_setObj (x := ⟨live dv st, m3.next, needed as.length, some S.addr, ob.tagged, false⟩) ho5 rfl rfl fun hx7 => ?_)
    have hdist : S.Distinct := ⟨hperm.nodup_iff.2 List.nodup_range', by rw [hleaves]; have := w6.nodup o; rwa [upd_same] at this⟩
    have hlen6 : S.inners.length = needed as.length := by rw [hperm.length_eq]; simp
    have hin : ∀ p ∈ S.inners, m3.next ≤ p ∧ p < m3.next + needed as.length := fun p hp => by
      have := hperm.mem_iff.1 hp
      simpa using this
    have hl : ∀ a ∈ S.leaves, a ∈ upd C o as o := fun a ha => by rw [upd_same, ← hleaves]; exact ha
    refine aw_bind (aw_mono (aw_markAllP (C := upd C o as) (o := o) hdist (needed as.length + 1) hl
      (by have := S.depth_le; omega) (live dv st) 0 _ g6 w6 (by rw [hK6]; exact hheld)) fun tags m8 hm => ?_)
    obtain ⟨g8, c8, hv8, ht8, hoff8, _, hmk8⟩ := hm
    simp only at hv8 ht8 hoff8
    have hno : ∀ q, S.Has q → chm g6.W nl6 q = noCh q := fun q hq => by
      cases q with
      | leaf a =>
        have : a ∈ as := by rw [← hleaves]; exact hq
        simp only [chm, noCh]
        rw [hW6]; exact hnoch a this
      | inner p =>
        obtain ⟨n, hn, hc⟩ := hfill.on p (hin p hq).1 (hin p hq).2
        simp only [chm, noCh, hn, Option.bind_some, hc]
    rw [view_congr hno] at hv8 ht8
    have ho8 : m8.obj o = some ⟨live dv st, m3.next, needed as.length, some S.addr, ob.tagged, false⟩ := by rw [c8.obj]; simp
    have hx8 := hx7.ch (ob := ⟨live dv st, m3.next, needed as.length, some S.addr, ob.tagged, false⟩) (by simp) c8 hl hin hoff8
    refine hx8.aw_setObj (x := ⟨live dv st, m3.next, needed as.length, some S.addr, tags, true⟩) ho8 rfl rfl fun hx9 => ?_
    refine ⟨g8, as, ⟨live dv st, m3.next, needed as.length, some S.addr, tags, true⟩, hx9, c8.wld, by simp, ?_, ?_⟩
    · show m8.res = m.res
      rw [c8.res]; exact er5.trans er3
    · have hb : buildTree dv st = ⟨live dv st, some (markAll 0 (live dv st) (view noCh S)).1,
          sortUnique (rawKeys (live dv st)), (markAll 0 (live dv st) (view noCh S)).2, true⟩ := by
        unfold buildTree
        simp only [hview]
      rw [hb] at hinv ⊢
      refine ⟨rfl, rfl, ?_, fun t ht => ?_, fun hr => by simp at hr, hinv, by simp only; omega⟩
      · show as.map g8.K = _
        rw [c8.K, hK6]; exact hkeys
      · simp only [Option.some.injEq] at ht
        subst ht
        exact ⟨S, hdist, c8.held (by rw [hK6]; exact hheld), hleaves, hin, hlen6, rfl, hv8, ht8, hmk8⟩

end

/-! ## Removal -/

theorem lookup_rel {S : Shape} {xs : List (Nat × List Ptr)} {ys : List (Nat × List Path)} (h : List.Forall₂ (TagRel S) xs ys) (i : Nat) :
    (xs.lookup i = none ∧ ys.lookup i = none) ∨ ∃ ps qs, xs.lookup i = some ps ∧ ys.lookup i = some qs ∧
      qs.map (ptrAt · S) = ps.map some ∧ (i, ps) ∈ xs := by
  induction h with
  | nil => exact .inl ⟨rfl, rfl⟩
  | @cons x y xs ys hxy _ ih =>
    obtain ⟨x1, x2⟩ := x
    obtain ⟨y1, y2⟩ := y
    obtain ⟨e1, e2⟩ := hxy
    simp only at e1 e2
    subst e1
    by_cases e : i = x1
    · subst e
      exact .inr ⟨x2, y2, by simp [List.lookup], by simp [List.lookup], e2, by simp⟩
    · have hb : (i == x1) = false := by simpa using e
      simp only [List.lookup, hb]
      rcases ih with ih | ⟨ps, qs, h1, h2, h3, h4⟩
      · exact .inl ih
      · exact .inr ⟨ps, qs, h1, h2, h3, by simp [h4]⟩

theorem filter_rel {S : Shape} {xs : List (Nat × List Ptr)} {ys : List (Nat × List Path)} (h : List.Forall₂ (TagRel S) xs ys) (i : Nat) :
    List.Forall₂ (TagRel S) (xs.filter fun t => decide (t.1 ≠ i)) (ys.filter fun t => decide (t.1 ≠ i)) := by
  induction h with
  | nil => exact .nil
  | @cons x y xs ys hxy _ ih =>
    by_cases e : x.1 = i
    · have e' : y.1 = i := by rw [← hxy.1]; exact e
      simpa [e, e'] using ih
    · have e' : ¬ y.1 = i := by rw [← hxy.1]; exact e
      rw [List.filter_cons_of_pos (by simpa using e), List.filter_cons_of_pos (by simpa using e')]
      exact .cons hxy ih

theorem rmAll_not_mem (i : Nat) : ∀ (ps : List Ptr) (ch : Ptr → Chain) {q : Ptr}, q ∉ ps → rmAll i ps ch q = ch q
  | [], _, _, _ => rfl
  | p :: ps, ch, q, h => by
    simp only [List.mem_cons, not_or] at h
    show rmAll i ps _ q = _
    rw [rmAll_not_mem i ps _ h.2]
    exact upd_ne _ _ h.1

theorem rmAll_mem {i j : Nat} (hj : j ≠ i) : ∀ (ps : List Ptr) (ch : Ptr → Chain) (q : Ptr), j ∈ (ch q).list → j ∈ (rmAll i ps ch q).list
  | [], _, _, h => h
  | p :: ps, ch, q, h => by
    refine rmAll_mem hj ps _ q ?_
    by_cases e : q = p
    · subst e
      show j ∈ (upd ch q _ q).list
      rw [upd_same, rm_list, ← List.count_pos_iff, rmChain_count i _ j hj]
      exact List.count_pos_iff.2 h
    · show j ∈ (upd ch p _ q).list
      rw [upd_ne _ _ e]; exact h

theorem WX.aw_removePos (h : WX dv o C m g slot rs) (w : Wld g m.lh C) {ob : Obj V} (ho : m.obj o = some ob) {st : State V}
    (cr : CRel dv g.W g.K m.nl (C o) ob st) {pos : Nat} (hp : pos < st.store.length) :
    aw (removePosP dv o pos) (fun _ m' => ∃ g' ob' st', removeValuePos dv pos st = .ok st' ∧ WX dv o C m' g' slot rs ∧
      Wld g' m'.lh C ∧ m'.obj o = some ob' ∧ m'.res = m.res ∧ CRel dv g'.W g'.K m'.nl (C o) ob' st') m := by
  obtain ⟨st', hst', hstore, hvalid, hinv⟩ := removeValuePos_inv cr.inv hp
  unfold removePosP
  refine aw_bind (aw_getObj ho ?_)
  rw [if_pos (by rw [cr.store]; exact hp)]
  refine aw_bind (h.aw_setObj (x := ⟨ob.store.set pos (deleted dv), ob.base, ob.size, ob.root, ob.tagged, ob.valid⟩) ho rfl rfl fun hx1 => ?_)
  have keep : ∀ {st' : State V}, st' = { st with store := st.store.set pos (deleted dv) } → Inv dv st' →
      CRel dv g.W g.K m.nl (C o) ⟨ob.store.set pos (deleted dv), ob.base, ob.size, ob.root, ob.tagged, ob.valid⟩ st' := by
    rintro st' rfl hinv
    refine ⟨by simp only [cr.store], cr.valid, cr.keys, fun t ht => ?_, cr.stale, hinv, cr.len⟩
    obtain ⟨S, tr⟩ := cr.tree t ht
    exact ⟨S, tr.distinct, tr.held, tr.leaves, tr.inners, tr.exact, tr.root, tr.view, tr.tags, tr.marked⟩
  have e0 := hst'
  unfold removeValuePos at hst'
  rw [if_pos hp] at hst'
  by_cases hv : st.valid = false
  · rw [if_pos (by simp only [cr.valid, hv])]
    simp only [if_pos hv] at hst'
    cases hst'
    exact aw_pure ⟨g, _, _, e0, hx1, w, by simp, rfl, keep rfl hinv⟩
  · rw [if_neg (by simp only [cr.valid, hv]; simp)]
    simp only [if_neg hv] at hst'
    obtain ⟨t, ht, -⟩ := cr.inv.tree (by simpa using hv)
    obtain ⟨S, tr⟩ := cr.tree t ht
    rcases lookup_rel tr.tags pos with ⟨l1, l2⟩ | ⟨ps, qs, l1, l2, hrel, hmem⟩
    · simp only [l2] at hst'
      cases hst'
      simp only [l1]
      exact aw_pure ⟨g, _, _, e0, hx1, w, by simp, rfl, keep rfl hinv⟩
    · have hra := view_removeAll pos tr.distinct (ch := chm g.W m.nl) hrel
      rw [tr.view] at hra
      simp only [l2, ht, hra] at hst'
      cases hst'
      simp only [l1]
      have hl : ∀ a ∈ S.leaves, a ∈ C o := fun a ha => tr.leaves ▸ ha
      have hhas : ∀ q ∈ ps, S.Has q := fun q hq => (tr.marked _ hmem q hq).1
      refine aw_bind (aw_mono (aw_unmark (C := C) (o := o) hl pos ps _ g w tr.held hhas) fun _ m2 hm => ?_)
      obtain ⟨g2, c2, hch⟩ := hm
      have ho2 : m2.obj o = some ⟨ob.store.set pos (deleted dv), ob.base, ob.size, ob.root, ob.tagged, ob.valid⟩ := by
        rw [c2.obj]; simp
      have hx2 := hx1.ch (ob := ⟨ob.store.set pos (deleted dv), ob.base, ob.size, ob.root, ob.tagged, ob.valid⟩) (by simp) c2 hl tr.inners
        fun q hq => by rw [hch]; exact rmAll_not_mem pos ps _ fun hm => hq (hhas q hm)
      refine hx2.aw_setObj ho2 (x := ⟨ob.store.set pos (deleted dv), ob.base, ob.size, ob.root,
        ob.tagged.filter fun t => decide (t.1 ≠ pos), ob.valid⟩) rfl rfl fun hx3 => ?_
      refine ⟨g2, ⟨ob.store.set pos (deleted dv), ob.base, ob.size, ob.root, ob.tagged.filter fun t => decide (t.1 ≠ pos), ob.valid⟩,
        _, e0, hx3, c2.wld, by simp, c2.res, ?_⟩
      refine ⟨by simp only [cr.store], cr.valid, by simp only [c2.K]; exact cr.keys, fun t' ht' => ?_, fun hr => by simp at hr, hinv, cr.len⟩
      simp only [Option.some.injEq] at ht'
      subst ht'
      refine ⟨S, tr.distinct, c2.held tr.held, tr.leaves, tr.inners, tr.exact, tr.root, by rw [hch], filter_rel tr.tags pos, ?_⟩
      intro x hx q hq
      obtain ⟨hx1, hx2⟩ := List.mem_filter.1 hx
      have := tr.marked x hx1 q hq
      refine ⟨this.1, ?_⟩
      rw [hch]
      exact rmAll_mem (by simpa using hx2) ps _ q this.2

section
variable [DecidableEq V]

theorem aw_eraseIfLoop (pred : Seg V → Bool) : ∀ (n pos cnt : Nat) (m : Mem V) (g : Pic Chain) (ob : Obj V) (st : State V),
    WX dv o C m g slot rs → Wld g m.lh C → m.obj o = some ob → CRel dv g.W g.K m.nl (C o) ob st → pos + n ≤ st.store.length →
    aw (eraseIfLoopP dv o pred n pos cnt) (fun c m' => ∃ g' ob' st', eraseIfLoop dv pred n pos st cnt = .ok (st', c) ∧
      WX dv o C m' g' slot rs ∧ Wld g' m'.lh C ∧ m'.obj o = some ob' ∧ m'.res = m.res ∧ CRel dv g'.W g'.K m'.nl (C o) ob' st') m := by
  intro n
  induction n with
  | zero => intro pos cnt m g ob st hx w ho cr _; exact aw_ret ⟨g, ob, st, rfl, hx, w, ho, rfl, cr⟩
  | succ n ih =>
    intro pos cnt m g ob st hx w ho cr hn
    unfold eraseIfLoopP eraseIfLoop
    refine aw_bind (aw_getObj ho ?_)
    have hp : pos < st.store.length := by omega
    obtain ⟨seg, hseg⟩ : ∃ seg, st.store[pos]? = some seg := ⟨st.store[pos], by simp⟩
    rw [cr.store]
    simp only [hseg]
    by_cases h1 : seg = deleted dv
    · simp only [if_pos h1]
      exact ih (pos + 1) cnt m g ob st hx w ho cr (by omega)
    · simp only [if_neg h1]
      by_cases h2 : pred seg = false
      · simp only [if_pos h2]
        exact ih (pos + 1) cnt m g ob st hx w ho cr (by omega)
      · simp only [if_neg h2]
        refine aw_bind (aw_mono (hx.aw_removePos w ho cr hp) fun _ m1 hm => ?_)
        obtain ⟨g1, ob1, st1, e1, hx1, w1, ho1, er1, cr1⟩ := hm
        have hlen : st1.store.length = st.store.length := by
          obtain ⟨st', e', hs, _⟩ := removeValuePos_inv cr.inv hp
          rw [e1] at e'
          cases e'
          rw [hs]; simp
        simp only [e1]
        refine aw_mono (ih (pos + 1) (cnt + 1) m1 g1 ob1 st1 hx1 w1 ho1 cr1 (by omega)) fun c m2 hm => ?_
        obtain ⟨g2, ob2, st2, e2, hx2, w2, ho2, er2, cr2⟩ := hm
        exact ⟨g2, ob2, st2, e2, hx2, w2, ho2, er2.trans er1, cr2⟩

end

/-! ## Searching -/

theorem search_lt {dv : V} {st : State V} (h : Inv dv st) (p : Int) : ∀ i ∈ (search st p).flatten, i < st.store.length := by
  cases hv : st.valid with
  | false =>
    have : search st p = [] := by unfold search; rw [hv]; cases st.root <;> rfl
    simp [this]
  | true =>
    obtain ⟨t, ht, inv⟩ := h.tree hv
    have hflat : (search st p).flatten = (descend p t).flatten := by
      unfold search; rw [ht, hv]; exact flatten_filter_ne_nil _
    rw [hflat]
    intro x hx
    have h1 := List.count_pos_iff.2 hx
    rw [show (descend p t).flatten.count x = hit st.store[x]? p from inv.cnt p x] at h1
    by_contra hn
    rw [List.getElem?_eq_none (by omega)] at h1; simp [hit] at h1

theorem nonEmpty_map (ch : Ptr → Chain) (ps : List Ptr) : (nonEmpty ch ps).map (fun q => (ch q).list) =
    (ps.map fun q => (ch q).list).filter fun c => decide (c ≠ []) := by
  induction ps with
  | nil => rfl
  | cons p ps ih =>
    by_cases h : (ch p).list = []
    · simpa [nonEmpty, h] using ih
    · simpa [nonEmpty, h] using ih

theorem WInv.aw_search (h : WInv dv m g C slot rs) {ob : Obj V} (ho : m.obj o = some ob) {st : State V}
    (cr : CRel dv g.W g.K m.nl (C o) ob st) (x : Nat) (pt : Int) :
    aw (searchP x o pt) (fun _ m' => WInv dv m' g C slot (upd rs x (some (o, (search st pt).flatten)))) m := by
  unfold searchP
  refine aw_bind (aw_getObj ho ?_)
  have hk : ∀ ps, RRel g.W m.nl (C o) ob ps (search st pt).flatten →
      aw (fun m : Mem V => .ok ((), { m with res := upd m.res x (some ⟨o, ps⟩) }))
        (fun _ m' => WInv dv m' g C slot (upd rs x (some (o, (search st pt).flatten)))) m := by
    intro ps hr
    refine ⟨(), _, rfl, h.wld, h.rel, h.alive, h.apart, h.only, fun y p is e => ?_⟩
    by_cases hy : y = x
    · subst hy
      rw [upd_same] at e
      cases e
      exact ⟨ob, ps, by simp, ho, hr⟩
    · rw [upd_ne _ _ hy] at e
      obtain ⟨ob', ps', e1, e2, r⟩ := h.res y p is e
      exact ⟨ob', ps', by simpa [upd, hy] using e1, e2, r⟩
  have hlt : ∀ i ∈ (search st pt).flatten, i < ob.store.length := by rw [cr.store]; exact search_lt cr.inv pt
  cases hv : st.valid with
  | false =>
    have hs : search st pt = [] := by unfold search; rw [hv]; cases st.root <;> rfl
    have hr : RRel g.W m.nl (C o) ob [] (search st pt).flatten := by rw [hs]; exact ⟨by simp, by simp, by simp, by simp⟩
    have hov : ob.valid = false := by rw [cr.valid, hv]
    cases hor : ob.root <;> simp only [hov] <;> exact aw_bind (aw_ret (hk [] hr))
  | true =>
    obtain ⟨t, ht, -⟩ := cr.inv.tree hv
    obtain ⟨S, tr⟩ := cr.tree t ht
    have hov : ob.valid = true := by rw [cr.valid, hv]
    simp only [hov, tr.root]
    refine aw_bind (aw_mono (aw_descendP h.wld (o := o) pt S (ob.size + 1) tr.held (fun a ha => tr.leaves ▸ ha) (by
      have := S.depth_le; have := tr.exact; omega)) ?_)
    rintro ps m' ⟨rfl, rfl⟩
    refine hk _ ⟨fun q hq => tr.own (visited_has (List.mem_of_mem_filter hq)), fun q hq => ?_, ?_, hlt⟩
    · simpa [nonEmpty] using (List.mem_filter.1 hq).2
    · rw [nonEmpty_map, ← view_descend, tr.view]
      unfold search
      rw [ht, hv]

theorem WInv.aw_positions (h : WInv dv m g C slot rs) {x p : Nat} {is : List Nat} (e : rs x = some (p, is)) :
    aw (positionsP (V := V) x) (fun r m' => m' = m ∧ r = (p, is)) m := by
  obtain ⟨ob, ps, e1, e2, r⟩ := h.res x p is e
  unfold positionsP
  refine aw_bind ⟨⟨p, ps⟩, m, by simp only [e1], ?_⟩
  refine aw_bind (aw_mono (aw_readChains h.wld ps fun q hq => ⟨?_, r.ne q hq⟩) ?_)
  · obtain ⟨h1, h2⟩ := r.own q hq
    cases q with
    | leaf a => exact ⟨p, h1 a rfl⟩
    | inner k => exact Option.isSome_iff_exists.1 (h.alive p ob e2 k (h2 k rfl)).1
  · rintro cs m' ⟨rfl, rfl⟩
    have hne : ∀ c ∈ (ps.map fun q => (chm g.W m'.nl q).list), c ≠ [] := by
      intro c hc
      obtain ⟨q, hq, rfl⟩ := List.mem_map.1 hc
      exact r.ne q hq
    rw [iterate_all _ hne _ (by simp [resSize, List.length_flatten])]
    exact aw_pure ⟨rfl, by rw [r.flat]⟩

theorem WInv.aw_read (h : WInv dv m g C slot rs) {x p : Nat} {is : List Nat} (e : rs x = some (p, is)) :
    ∃ ob segs, m.obj p = some ob ∧ is.mapM (ob.store[·]?) = some segs ∧
      aw (readP (V := V) x) (fun r m' => m' = m ∧ r = segs) m := by
  obtain ⟨ob, ps, e1, e2, r⟩ := h.res x p is e
  have hm := mapM_get ob.store (⟨0, 0, dv⟩) is r.lt
  refine ⟨ob, _, e2, hm, ?_⟩
  unfold readP
  refine aw_bind (aw_mono (h.aw_positions e) ?_)
  rintro r m' ⟨rfl, rfl⟩
  exact aw_bind (aw_getObj e2 (aw_readStore ob.store is _ hm))

theorem aw_check (h : WInv dv m g C slot rs) {ob : Obj V} (ho : m.obj o = some ob)
    (ht : ∀ t ∈ ob.tagged, ∀ q ∈ t.2, (∀ a, q = .leaf a → a ∈ C o) ∧ (∀ p, q = .inner p → inPool ob p) ∧ t.1 ∈ (chm g.W m.nl q).list) :
    aw (checkTagsP (V := V) o) (fun b m' => m' = m ∧ b = true) m := by
  unfold checkTagsP
  refine aw_bind (aw_getObj ho (aw_checkAllTags h.wld _ fun t hm q hq => ?_))
  obtain ⟨h1, h2, h3⟩ := ht t hm q hq
  refine ⟨?_, h3⟩
  cases q with
  | leaf a => exact ⟨o, h1 a rfl⟩
  | inner k => exact Option.isSome_iff_exists.1 (h.alive o ob ho k (h2 k rfl)).1

/-! ## Exchange -/

/-- Exchange two numbers. -/
def sw (a b p : Nat) : Nat := if p = b then a else if p = a then b else p

theorem sw_sw (a b p : Nat) : sw a b (sw a b p) = p := by
  unfold sw; repeat' split
  all_goals omega

theorem upd_sw {α : Type} (f : Nat → α) (a b : Nat) : upd (upd f a (f b)) b (f a) = fun p => f (sw a b p) := by
  funext p
  unfold sw
  by_cases e1 : p = b
  · simp [e1]
  · by_cases e2 : p = a
    · subst e2; simp [upd, e1]
    · simp [upd, e1, e2]

theorem wld_exchange {h' : Heap Chain} {a b : Nat} (hab : a ≠ b) (w : Wld g m.lh C) {R' : Root → Option Nat}
    (s : Sat { g with R := R' } h')
    (hla : R' (.left a) = g.R (.left b)) (hlb : R' (.left b) = g.R (.left a))
    (hra : R' (.right a) = g.R (.right b)) (hrb : R' (.right b) = g.R (.right a))
    (hR : ∀ r, r ≠ .left a → r ≠ .left b → r ≠ .right a → r ≠ .right b → R' r = g.R r) :
    Wld { g with R := R' } h' (fun p => C (sw a b p)) := by
  refine ⟨s, fun o => ?_, fun o => ?_, fun o => w.fwd _, fun o => w.bwd _, fun o => w.nodup _,
    fun o p hop x hx => w.disj _ _ (fun e => hop ?_) x hx, fun x => ?_, fun x hx => ?_⟩
  · show R' (.left o) = _
    unfold sw
    by_cases e1 : o = b
    · subst e1; simp [hlb, w.left]
    · by_cases e2 : o = a
      · subst e2; simp [hab, hla, w.left]
      · simp [e1, e2, hR, w.left]
  · show R' (.right o) = _
    unfold sw
    by_cases e1 : o = b
    · subst e1; simp [hrb, w.right]
    · by_cases e2 : o = a
      · subst e2; simp [hab, hra, w.right]
      · simp [e1, e2, hR, w.right]
  · have := congrArg (sw a b) e
    rwa [sw_sw, sw_sw] at this
  · show R' (.var x) = none
    rw [hR _ (by simp) (by simp) (by simp) (by simp), w.vars]
  · obtain ⟨o, ho⟩ := w.U x hx
    exact ⟨sw a b o, by simpa [sw_sw] using ho⟩

theorem WInv.exchange (h : WInv dv m g C slot rs) {a b : Nat} {h' : Heap Chain} {R' : Root → Option Nat}
    (w : Wld { g with R := R' } h' (fun p => C (sw a b p))) :
    WInv dv { m with lh := h', obj := fun p => m.obj (sw a b p) } { g with R := R' } (fun p => C (sw a b p)) (fun p => slot (sw a b p))
      (inval a (inval b rs)) := by
  refine ⟨w, fun p => h.rel _, fun p => h.alive _, fun p p' x x' hx hx' hpp => h.apart _ _ x x' hx hx' fun e => hpp ?_,
    fun q hq => ?_, fun x p is e => ?_⟩
  · have := congrArg (sw a b) e
    rwa [sw_sw, sw_sw] at this
  · obtain ⟨p, ob, e1, e2⟩ := h.only q hq
    exact ⟨sw a b p, ob, by simpa [sw_sw] using e1, e2⟩
  · obtain ⟨e, ha⟩ := inval_some e
    obtain ⟨e, hb⟩ := inval_some e
    obtain ⟨ob, ps, e1, e2, r⟩ := h.res x p is e
    have : sw a b p = p := by simp [sw, ha, hb]
    exact ⟨ob, ps, e1, by simpa [this] using e2, by simpa [this] using r⟩

theorem inval_dead (h : WInv dv m g C slot rs) {o : Nat} (ho : m.obj o = none) : inval o rs = rs := by
  funext x
  cases e : rs x with
  | none => simp [inval, e]
  | some r =>
    obtain ⟨ob, ps, _, e2, _⟩ := h.res x r.1 r.2 e
    have : r.1 ≠ o := fun hr => by rw [hr, ho] at e2; cases e2
    simp [inval, e, this]

theorem SRel.gone {W : Nat → Chain} {K : Nat → Int} {nl : Nat → Option Inner} {as : List Nat} {ob : Option (Obj V)}
    (h : SRel dv W K nl as ob Slot.dead) : ob = none ∧ as = [] := by
  cases ob with
  | none => exact ⟨rfl, h⟩
  | some ob => exact h.elim

end Mdds.SegTree.Mem
