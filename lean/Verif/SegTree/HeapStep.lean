import Verif.SegTree.HeapOps

/-!
# Every call keeps memory in order
-/
namespace Mdds.SegTree.Mem

open Mdds.FST.Mem hiding Path

variable {V : Type} {dv : V} {o : Nat} {C : Nat → List Nat} {m : Mem V} {g : Pic Chain} {slot : Nat → Slot V}
  {rs : Nat → Option (Nat × List Nat)}

/-- Memory shows these tables. -/
def InOrder (dv : V) (slot : Nat → Slot V) (rs : Nat → Option (Nat × List Nat)) (m : Mem V) : Prop :=
  ∃ g C, WInv dv m g C slot rs

theorem upd_upd {α : Type} (f : Nat → α) (a : Nat) (x y : α) : upd (upd f a x) a y = upd f a y := by
  funext p; by_cases e : p = a <;> simp [upd, e]

/-- What is known of a live container. -/
structure Base (W : Nat → Chain) (K : Nat → Int) (as : List Nat) (ob : Obj V) (s : Slot V) (dv : V) : Prop where
  len : as.length ≠ 1
  store : ob.store = s.val.store
  tag : s.val.tagged = [] → ob.tagged = []
  wf : ∀ x ∈ s.val.store, x = deleted dv ∨ x.start < x.stop
  keys : as.map K = s.val.leaves

theorem SRel.base {W : Nat → Chain} {K : Nat → Int} {nl : Nat → Option Inner} {as : List Nat} {x : Option (Obj V)} {s : Slot V}
    (h : SRel dv W K nl as x s) (ha : s.alive = true) : ∃ ob, x = some ob ∧ Base W K as ob s dv := by
  match x, s, h with
  | none, .dead, _ => simp [Slot.alive] at ha
  | some ob, .moved, h =>
    obtain ⟨h1, h2, h3, h4, h5⟩ := h
    subst h5
    exact ⟨ob, rfl, by simp, h1, fun _ => h3, by simp [Slot.val, mk], rfl⟩
  | some ob, .live st, h =>
    refine ⟨ob, rfl, ?_, h.store, fun ht => ?_, h.inv.wf, h.keys⟩
    · have := h.len; rw [← h.keys] at this; simpa using this
    · cases hr : st.root with
      | none => exact h.stale hr ht
      | some t =>
        obtain ⟨S, tr⟩ := h.tree t hr
        have := tr.tags
        rw [show st.tagged = [] from ht] at this
        exact List.forall₂_nil_right_iff.1 this

theorem SRel.dead_of {W : Nat → Chain} {K : Nat → Int} {nl : Nat → Option Inner} {as : List Nat} {x : Option (Obj V)} {s : Slot V}
    (h : SRel dv W K nl as x s) (ha : s.alive = false) : x = none ∧ as = [] ∧ s = .dead := by
  match x, s, h with
  | none, .dead, h => exact ⟨rfl, h, rfl⟩
  | some ob, .moved, _ => simp [Slot.alive] at ha
  | some ob, .live st, _ => simp [Slot.alive] at ha

/-- A container without segments or nodes. -/
theorem crel_mk {W : Nat → Chain} {K : Nat → Int} {nl : Nat → Option Inner} {ob : Obj V} (h1 : ob.store = []) (h2 : ob.valid = false)
    (h3 : ob.tagged = []) : CRel dv W K nl [] ob (mk : State V) :=
  ⟨h1, h2, rfl, fun t ht => by simp [mk] at ht, fun _ _ => h3, inv_mk dv, by simp [mk]⟩

theorem upd_nil {o : Nat} (h : C o = []) : upd C o [] = C := by
  funext p; by_cases e : p = o <;> simp [upd, e, h]

/-- A container comes to life or ends; it has no pool. -/
theorem WInv.born (h : WInv dv m g C slot rs) (ho : m.obj o = none) {ob : Obj V} (hs : ob.size = 0) :
    WX dv o C { m with obj := upd m.obj o (some ob) } g slot rs := by
  refine (h.wx o).setObj (fun x hx q hq => ?_) fun y hy => by rw [ho] at hy; cases hy
  cases hx
  unfold inPool at hq
  omega

theorem aw_destruct (h : WInv dv m g C slot rs) (ha : (slot o).alive = true) :
    aw (destructP o) (fun _ m' => InOrder dv (upd slot o .dead) (inval o rs) m') m := by
  obtain ⟨ob, ho, b⟩ := (h.rel o).base ha
  unfold destructP
  refine aw_bind ((h.wx o).aw_clearNodes h.wld ho b.len fun m1 g1 hx1 w1 ho1 _ => ?_)
  refine aw_endObj ho1 ?_
  have hx2 := hx1.setObj (ob := none) (fun x hx => by cases hx) fun y hy q hq => by
    rw [ho1] at hy; cases hy
    simp [inPool] at hq
  exact ⟨g1, _, hx2.close w1 (by simp [SRel])⟩

theorem aw_clear (h : WInv dv m g C slot rs) (ha : (slot o).alive = true) :
    aw (clearP o) (fun _ m' => InOrder dv (upd slot o (.live mk)) (inval o rs) m') m := by
  obtain ⟨ob, ho, b⟩ := (h.rel o).base ha
  unfold clearP
  refine aw_bind (aw_getObj ho ?_)
  refine aw_bind ((h.wx o).aw_setObj (x := ⟨[], ob.base, ob.size, ob.root, [], ob.valid⟩) ho rfl rfl fun hx1 => ?_)
  refine aw_bind (hx1.aw_clearNodes h.wld (ob := ⟨[], ob.base, ob.size, ob.root, [], ob.valid⟩) (by simp) b.len fun m2 g2 hx2 w2 ho2 _ => ?_)
  refine aw_bind (aw_getObj ho2 ?_)
  refine hx2.aw_setObj (x := ⟨[], 0, 0, none, [], false⟩) ho2 rfl rfl fun hx3 => ?_
  refine ⟨g2, _, hx3.close w2 ?_⟩
  simp only [upd_same]
  exact crel_mk rfl rfl rfl

theorem aw_insert (h : WInv dv m g C slot rs) (ha : (slot o).alive = true) (s e : Int) (v : V) :
    aw (insertP o s e v) (fun b m' => match Mdds.SegTree.insert s e v (slot o).val with
      | .ok st => b = true ∧ InOrder dv (upd slot o (.live st)) rs m'
      | _ => b = false ∧ InOrder dv slot rs m') m := by
  obtain ⟨ob, ho, b⟩ := (h.rel o).base ha
  unfold insertP
  refine aw_bind (aw_getObj ho ?_)
  by_cases hse : e ≤ s
  · simp only [if_pos hse, Mdds.SegTree.insert]
    exact aw_pure ⟨rfl, g, C, h⟩
  · simp only [if_neg hse, Mdds.SegTree.insert]
    refine aw_bind ((h.wx o).aw_setObj (x := ⟨ob.store ++ [⟨s, e, v⟩], ob.base, ob.size, ob.root, ob.tagged, false⟩) ho rfl rfl fun hx1 => ?_)
    refine aw_pure ⟨rfl, g, C, h.wld, fun p => ?_, hx1.alive, hx1.apart, hx1.only, fun x p is hr => ?_⟩
    · by_cases e1 : p = o
      · subst e1
        simp only [upd_same]
        have hr := h.rel p
        rw [ho] at hr
        cases hs : slot p with
        | dead => rw [hs] at hr; exact hr.elim
        | moved =>
          rw [hs] at hr
          obtain ⟨h1, h2, h3, h4, h5⟩ := hr
          simp only [Slot.val, mk]
          rw [h1, h3, h5]
          exact ⟨rfl, rfl, rfl, fun t ht => by simp at ht, fun _ _ => rfl, ⟨by simp; omega, by simp⟩, by simp⟩
        | live st =>
          rw [hs] at hr
          have hr : CRel dv g.W g.K m.nl (C p) ob st := hr
          simp only [Slot.val]
          refine ⟨by simp [hr.store], rfl, hr.keys, fun t ht => ?_, hr.stale, ?_, hr.len⟩
          · obtain ⟨S, tr⟩ := hr.tree t ht
            exact ⟨S, tr.distinct, tr.held, tr.leaves, tr.inners, tr.exact, tr.root, tr.view, tr.tags, tr.marked⟩
          · exact insert_inv hr.inv (s := s) (e := e) (v := v) (by simp [Mdds.SegTree.insert, if_neg hse])
      · simp only [upd_ne _ _ e1]
        exact h.rel p
    · obtain ⟨ob', ps, e1, e2, r⟩ := h.res x p is hr
      by_cases e3 : p = o
      · subst e3
        rw [ho] at e2
        cases e2
        refine ⟨⟨ob.store ++ [⟨s, e, v⟩], ob.base, ob.size, ob.root, ob.tagged, false⟩, ps, e1, by simp, r.own, r.ne, r.flat, fun i hi => ?_⟩
        have := r.lt i hi
        simp
        omega
      · exact ⟨ob', ps, e1, by simpa [upd, e3] using e2, r⟩

theorem aw_swap (h : WInv dv m g C slot rs) {a b : Nat} (ha : (slot a).alive = true) (hb : (slot b).alive = true) :
    aw (swapP a b) (fun _ m' => InOrder dv (upd (upd slot a (slot b)) b (slot a)) (inval a (inval b rs)) m') m := by
  obtain ⟨x, hx, -⟩ := (h.rel a).base ha
  obtain ⟨y, hy, -⟩ := (h.rel b).base hb
  unfold swapP
  refine aw_bind (aw_getObj hx (aw_bind (aw_getObj hy ?_)))
  refine aw_bind (aw_setObj hx (aw_bind (aw_setObj (y := y) (by by_cases e : b = a <;> simp [upd, e, hy]) (aw_leaves ?_))))
  have hobj : upd (upd m.obj a (some y)) b (some x) = fun p => m.obj (sw a b p) := by rw [← upd_sw, hx, hy]
  simp only [hobj, upd_sw]
  unfold swapLeaves
  by_cases hab : a = b
  · subst hab
    refine wp_bind (wp_swapRoots_self (wp_swapRoots_self ?_))
    have e0 : ∀ p, sw a a p = p := fun p => by unfold sw; split <;> simp_all
    simp only [e0]
    refine ⟨g, C, h.wld, h.rel, h.alive, h.apart, h.only, fun x p is e => ?_⟩
    exact h.res x p is (inval_some (inval_some e).1).1
  · refine wp_bind (wp_swapRoots h.wld.sat (by simp [hab]) fun h1 s1 => ?_)
    refine wp_swapRoots s1 (by simp [hab]) fun h2 s2 => ?_
    refine ⟨_, _, h.exchange (wld_exchange hab h.wld s2 ?_ ?_ ?_ ?_ ?_)⟩
    · simp [upd, hab]
    · simp [upd]
    · simp [upd, hab]
    · simp [upd]
    · intro r h1 h2 h3 h4
      simp [upd, h1, h2, h3, h4]

theorem aw_move (h : WInv dv m g C slot rs) {o r : Nat} (ho : (slot o).alive = false) (hr : (slot r).alive = true) :
    aw (moveP o r) (fun _ m' => InOrder dv (upd (upd slot o (slot r)) r (slot r).left) (inval r rs) m') m := by
  have hor : o ≠ r := by rintro rfl; rw [ho] at hr; cases hr
  obtain ⟨x, hx, b⟩ := (h.rel r).base hr
  obtain ⟨hn, hCo, hdead⟩ := (h.rel o).dead_of ho
  unfold moveP
  refine aw_bind (aw_getObj hx (aw_bind (aw_newObj hn (aw_bind (aw_leaves ?_)))))
  unfold moveConstruct
  refine wp_bind (wp_moveTo h.wld.sat (l := .root (.left o)) rfl (by simp [hor]) fun h1 s1 => ?_)
  refine wp_moveTo s1 (l := .root (.right o)) rfl (by simp [hor]) fun h2 s2 => ?_
  simp only [Pic.set] at s2
  have hl : g.R (.left o) = none := by rw [h.wld.left, hCo]; rfl
  have hrr : g.R (.right o) = none := by rw [h.wld.right, hCo]; rfl
  have w2 := wld_exchange hor h.wld s2 (by simp [upd]) (by simp [upd, Ne.symm hor, hl]) (by simp [upd])
    (by simp [upd, Ne.symm hor, hrr]) (by intro q h1 h2 h3 h4; simp [upd, h1, h2, h3, h4])
  have hx2 := h.exchange w2
  refine aw_setObj (y := x) (by simp [upd, Ne.symm hor, hx]) ?_
  have hx3 := hx2.born (o := r) (ob := { (Obj.new : Obj V) with root := x.root, valid := x.valid }) (by simp [sw, hn]) rfl
  simp only [← upd_sw m.obj, hx, hn, upd_upd] at hx3
  have hw : upd (fun p => C (sw o r p)) r [] = fun p => C (sw o r p) := upd_nil (by simp [sw, hCo])
  have hx4 := hx3.close (as := []) (by rw [hw]; exact w2) (s := (slot r).left) (by
    simp only [upd_same]
    have hrel := h.rel r
    rw [hx] at hrel
    cases hs : slot r with
    | dead => rw [hs] at hr; simp [Slot.alive] at hr
    | moved =>
      rw [hs] at hrel
      exact ⟨rfl, rfl, rfl, hrel.2.2.2.1, rfl⟩
    | live st =>
      rw [hs] at hrel
      have hrel : CRel dv g.W g.K m.nl (C r) x st := hrel
      cases hv : st.valid with
      | true =>
        simp only [Slot.left, hv, if_true]
        exact ⟨rfl, rfl, rfl, by rw [← hv]; exact hrel.valid, rfl⟩
      | false =>
        simp only [Slot.left, hv]
        exact crel_mk rfl (by rw [← hv]; exact hrel.valid) rfl)
  rw [← upd_sw slot, upd_upd] at hx4
  have e1 : inval r (inval o (inval r rs)) = inval r rs := by
    funext x
    simp only [inval]
    cases e : rs x with
    | none => rfl
    | some q =>
      have : q.1 ≠ o := fun hq => by
        obtain ⟨ob, ps, _, e2, _⟩ := h.res x q.1 q.2 e
        rw [hq, hn] at e2; cases e2
      by_cases hq : q.1 = r
      · simp [Option.filter, hq]
      · simp [Option.filter, hq, this]
  rw [e1] at hx4
  exact ⟨_, _, hx4⟩

theorem filterMap_of_mapM {store : List (Seg V)} : ∀ (is : List Nat) (l : List (Seg V)), is.mapM (store[·]?) = some l →
    is.filterMap (store[·]?) = l
  | [], l, h => by simp at h; simp [h]
  | i :: is, l, h => by
    rw [List.mapM_cons] at h
    cases e : store[i]? with
    | none => rw [e] at h; simp at h
    | some s =>
      rw [e] at h
      cases e2 : is.mapM (store[·]?) with
      | none => rw [e2] at h; simp at h
      | some l' =>
        rw [e2] at h
        simp at h
        rw [List.filterMap_cons, e, filterMap_of_mapM is l' e2]
        exact h

section
variable [DecidableEq V]

theorem aw_buildC (h : WInv dv m g C slot rs) (ha : (slot o).alive = true) :
    aw (buildTreeP dv o) (fun _ m' => InOrder dv (upd slot o (.live (buildTree dv (slot o).val))) (inval o rs) m') m := by
  obtain ⟨ob, ho, b⟩ := (h.rel o).base ha
  refine aw_mono ((h.wx o).aw_buildTree h.wld ho b.len b.wf b.store b.tag) ?_
  rintro _ m' ⟨g', as, ob', hx, w, ho', _, cr⟩
  have := hx.close (as := as) (by rw [upd_upd]; exact w) (s := .live (buildTree dv (slot o).val)) (by rw [ho']; exact cr)
  exact ⟨g', _, this⟩

theorem aw_copy (h : WInv dv m g C slot rs) {o r : Nat} (ho : (slot o).alive = false) (hr : (slot r).alive = true) :
    aw (copyP dv o r) (fun _ m' => InOrder dv (upd slot o (.live (copy dv (slot r).val))) rs m') m := by
  obtain ⟨x, hx, b⟩ := (h.rel r).base hr
  obtain ⟨hn, hCo, hdead⟩ := (h.rel o).dead_of ho
  unfold copyP
  refine aw_bind (aw_getObj hx (aw_bind (aw_newObj hn ?_)))
  have hx1 := h.born (o := o) (ob := { (Obj.new : Obj V) with store := x.store, valid := x.valid }) hn rfl
  have hinv := inval_dead h hn
  have hrel := h.rel r
  rw [hx] at hrel
  by_cases hv : x.valid = true
  · rw [if_pos hv]
    refine aw_mono (hx1.aw_buildTree h.wld (ob := { (Obj.new : Obj V) with store := x.store, valid := x.valid }) (by simp) (by simp [hCo])
      (st := ⟨x.store, none, [], [], true⟩) (by rw [b.store]; exact b.wf) rfl (fun _ => rfl)) ?_
    rintro _ m' ⟨g', as, ob', hx', w, ho', _, cr⟩
    have hc : copy dv (slot r).val = buildTree dv ⟨x.store, none, [], [], true⟩ := by
      cases hs : slot r with
      | dead => rw [hs] at hr; simp [Slot.alive] at hr
      | moved =>
        rw [hs] at hrel
        rw [hrel.1]
        rfl
      | live st =>
        rw [hs] at hrel
        have hrel : CRel dv g.W g.K m.nl (C r) x st := hrel
        have : st.valid = true := by rw [← hrel.valid]; exact hv
        simp only [Slot.val, copy, this, if_true, hrel.store]
    have := hx'.close (as := as) (by rw [upd_upd]; exact w) (s := .live (copy dv (slot r).val)) (by rw [ho', hc]; exact cr)
    rw [hinv] at this
    exact ⟨g', _, this⟩
  · rw [if_neg hv]
    have hv : x.valid = false := by simpa using hv
    refine aw_pure ⟨g, C, ?_⟩
    have hc : copy dv (slot r).val = ⟨x.store, none, [], [], false⟩ := by
      cases hs : slot r with
      | dead => rw [hs] at hr; simp [Slot.alive] at hr
      | moved =>
        rw [hs] at hrel
        rw [hrel.2.2.2.1] at hv; cases hv
      | live st =>
        rw [hs] at hrel
        have hrel : CRel dv g.W g.K m.nl (C r) x st := hrel
        have : st.valid = false := by rw [← hrel.valid]; exact hv
        simp only [Slot.val, copy, this, hrel.store]
        rfl
    have := hx1.close (as := []) (by rw [upd_nil hCo]; exact h.wld) (s := .live (copy dv (slot r).val)) (by
      rw [hc]
      simp only [upd_same]
      exact ⟨rfl, hv, rfl, fun t ht => by simp at ht, fun _ _ => rfl, ⟨by rw [b.store]; exact b.wf, by simp⟩, by simp⟩)
    rw [upd_nil hCo, hinv] at this
    exact this

theorem aw_eraseIfC (h : WInv dv m g C slot rs) (ha : (slot o).alive = true) (pred : Seg V → Bool) :
    aw (eraseIfP dv o pred) (fun n m' => match slot o with
      | .live st => ∃ st', eraseIf dv pred st = .ok (st', n) ∧ InOrder dv (upd slot o (.live st')) (inval o rs) m'
      | _ => n = 0 ∧ InOrder dv slot (inval o rs) m') m := by
  obtain ⟨ob, ho, b⟩ := (h.rel o).base ha
  have hrel := h.rel o
  rw [ho] at hrel
  have hinval : InOrder dv slot (inval o rs) m := ⟨g, C, h.wld, h.rel, h.alive, h.apart, h.only, fun x p is e => h.res x p is (inval_some e).1⟩
  unfold eraseIfP
  refine aw_bind (aw_getObj ho ?_)
  cases hs : slot o with
  | dead => rw [hs] at ha; simp [Slot.alive] at ha
  | moved =>
    rw [hs] at hrel
    rw [hrel.1]
    exact aw_ret ⟨rfl, hinval⟩
  | live st =>
    rw [hs] at hrel
    have hrel : CRel dv g.W g.K m.nl (C o) ob st := hrel
    rw [hrel.store]
    refine aw_mono (aw_eraseIfLoop pred st.store.length 0 0 m g ob st (h.wx o) h.wld ho hrel (by omega)) ?_
    rintro n m' ⟨g', ob', st', e, hx, w, ho', _, cr⟩
    refine ⟨st', e, g', C, ?_⟩
    have := hx.close (as := C o) (by rw [upd_self]; exact w) (s := .live st') (by rw [ho']; exact cr)
    rw [upd_self] at this
    exact this

omit [DecidableEq V] in
theorem aw_erase (h : WInv dv m g C slot rs) {st : State V} (hs : slot o = .live st) {x k : Nat} {is : List Nat}
    (hr : rs x = some (o, is)) {pos : Nat} (hk : is[k]? = some pos) :
    aw (eraseP dv o x k) (fun _ m' => ∃ st', removeValuePos dv pos st = .ok st' ∧ InOrder dv (upd slot o (.live st')) (inval o rs) m') m := by
  obtain ⟨ob, ho, b⟩ := (h.rel o).base (by rw [hs]; rfl)
  have hrel := h.rel o
  rw [ho, hs] at hrel
  have hrel : CRel dv g.W g.K m.nl (C o) ob st := hrel
  have hpos : pos < st.store.length := by
    obtain ⟨ob', ps, e1, e2, r⟩ := h.res x o is hr
    rw [ho] at e2; cases e2
    rw [← hrel.store]
    exact r.lt pos (List.mem_of_getElem? hk)
  unfold eraseP
  refine aw_bind (aw_mono (h.aw_positions hr) ?_)
  rintro r m' ⟨rfl, rfl⟩
  simp only [hk]
  refine aw_mono ((h.wx o).aw_removePos h.wld ho hrel hpos) ?_
  rintro _ m2 ⟨g', ob', st', e, hx, w, ho', _, cr⟩
  refine ⟨st', e, g', C, ?_⟩
  have := hx.close (as := C o) (by rw [upd_self]; exact w) (s := .live st') (by rw [ho']; exact cr)
  rw [upd_self] at this
  exact this

omit [DecidableEq V] in
theorem InOrder.weaken {slot : Nat → Slot V} {rs rs' : Nat → Option (Nat × List Nat)} (h : InOrder dv slot rs m)
    (hr : ∀ x r, rs' x = some r → rs x = some r) : InOrder dv slot rs' m := by
  obtain ⟨g, C, h⟩ := h
  exact ⟨g, C, h.wld, h.rel, h.alive, h.apart, h.only, fun x p is e => h.res x p is (hr _ _ e)⟩

omit [DecidableEq V] in
theorem InOrder.owner {slot : Nat → Slot V} {rs : Nat → Option (Nat × List Nat)} (h : InOrder dv slot rs m) (h0 : slot 0 = .dead)
    {x : Nat} {r : Nat × List Nat} (e : rs x = some r) : r.1 ≠ 0 := by
  obtain ⟨g, C, h⟩ := h
  intro hr
  obtain ⟨ob, ps, _, e2, _⟩ := h.res x r.1 r.2 e
  have := h.rel 0
  rw [hr] at e2
  rw [h0, e2] at this
  exact this

theorem inval_mk {o x : Nat} {rs : Nat → Option (Nat × List Nat)} {r : Nat × List Nat} (h : rs x = some r) (hr : r.1 ≠ o) :
    inval o rs x = some r := by simp [inval, h, Option.filter, hr]

theorem aw_assignCopy {w : World V} (h : InOrder dv w.slot w.res m) (h0 : w.slot 0 = .dead) {o r : Nat}
    (ho : (w.slot o).alive = true) (hr : (w.slot r).alive = true) :
    aw (assignCopyP dv o r) (fun _ m' => InOrder dv (upd w.slot o (.live (copy dv (w.slot r).val))) (inval o w.res) m') m := by
  have hown : ∀ {x : Nat} {q : Nat × List Nat}, w.res x = some q → q.1 ≠ 0 := fun e => h.owner h0 e
  have o0 : o ≠ 0 := by rintro rfl; rw [h0] at ho; cases ho
  obtain ⟨g, C, h⟩ := h
  unfold assignCopyP
  refine aw_bind (aw_mono (aw_copy h (o := 0) (by rw [h0]; rfl) hr) fun _ m1 h1 => ?_)
  obtain ⟨g1, C1, h1⟩ := h1
  refine aw_bind (aw_mono (aw_swap h1 (a := o) (b := 0) (by rw [upd_ne _ _ o0]; exact ho) (by rw [upd_same]; rfl)) fun _ m2 h2 => ?_)
  obtain ⟨g2, C2, h2⟩ := h2
  refine aw_mono (aw_destruct h2 (o := 0) (by simp only [upd_same, upd_ne _ _ o0]; exact ho)) fun _ m3 h3 => ?_
  have e1 : upd (upd (upd (upd w.slot 0 (.live (copy dv (w.slot r).val))) o (upd w.slot 0 (.live (copy dv (w.slot r).val)) 0)) 0
      (upd w.slot 0 (.live (copy dv (w.slot r).val)) o)) 0 .dead = upd w.slot o (.live (copy dv (w.slot r).val)) := by
    funext p
    by_cases e1 : p = 0
    · subst e1; simp [upd, Ne.symm o0, h0]
    · by_cases e2 : p = o
      · subst e2; simp [upd, e1]
      · simp [upd, e1, e2]
  rw [e1] at h3
  refine h3.weaken fun x q e => ?_
  obtain ⟨e, hq⟩ := inval_some (p := q.1) (is := q.2) e
  have := hown e
  exact inval_mk (inval_mk (inval_mk e this) hq) this

omit [DecidableEq V] in
theorem aw_assignMove {w : World V} (h : InOrder dv w.slot w.res m) (h0 : w.slot 0 = .dead) {o r : Nat}
    (ho : (w.slot o).alive = true) (hr : (w.slot r).alive = true) :
    aw (assignMoveP o r) (fun _ m' => InOrder dv (upd (upd w.slot r (w.slot r).left) o (w.slot r)) (inval o (inval r w.res)) m') m := by
  have hown : ∀ {x : Nat} {q : Nat × List Nat}, w.res x = some q → q.1 ≠ 0 := fun e => h.owner h0 e
  have o0 : o ≠ 0 := by rintro rfl; rw [h0] at ho; cases ho
  have r0 : r ≠ 0 := by rintro rfl; rw [h0] at hr; cases hr
  have hleft : (w.slot r).left.alive = true := by
    cases hs : w.slot r with
    | dead => rw [hs] at hr; cases hr
    | moved => rfl
    | live st => unfold Slot.left; simp only; split <;> rfl
  obtain ⟨g, C, h⟩ := h
  unfold assignMoveP
  refine aw_bind (aw_mono (aw_move h (o := 0) (by rw [h0]; rfl) hr) fun _ m1 h1 => ?_)
  obtain ⟨g1, C1, h1⟩ := h1
  have ho1 : (upd (upd w.slot 0 (w.slot r)) r (w.slot r).left o).alive = true := by
    by_cases e : o = r
    · subst e; rw [upd_same]; exact hleft
    · rw [upd_ne _ _ e, upd_ne _ _ o0]; exact ho
  refine aw_bind (aw_mono (aw_swap h1 (a := o) (b := 0) ho1 (by rw [upd_ne _ _ (Ne.symm r0), upd_same]; exact hr)) fun _ m2 h2 => ?_)
  obtain ⟨g2, C2, h2⟩ := h2
  refine aw_mono (aw_destruct h2 (o := 0) (by rw [upd_same]; exact ho1)) fun _ m3 h3 => ?_
  have e1 : ∀ f : Nat → Slot V, f = upd (upd w.slot 0 (w.slot r)) r (w.slot r).left →
      upd (upd (upd f o (f 0)) 0 (f o)) 0 .dead = upd (upd w.slot r (w.slot r).left) o (w.slot r) := by
    rintro f rfl
    funext p
    by_cases e1 : p = 0
    · subst e1; simp [upd, Ne.symm o0, Ne.symm r0, h0]
    · by_cases e2 : p = o
      · subst e2; simp [upd, e1, Ne.symm r0]
      · by_cases e3 : p = r
        · subst e3; simp [upd, e1, e2]
        · simp [upd, e1, e2, e3]
  rw [e1 _ rfl] at h3
  refine h3.weaken fun x q e => ?_
  obtain ⟨e, hq⟩ := inval_some (p := q.1) (is := q.2) e
  obtain ⟨e, hq'⟩ := inval_some e
  have := hown e
  exact inval_mk (inval_mk (inval_mk (inval_mk e hq') this) hq) this

/-- A call that is allowed is defined, returns what `World.step` says, and keeps memory in order. -/
theorem step_ok {w w' : World V} {c : Cmd V} {r : Ret V} (h : InOrder dv w.slot w.res m) (h0 : w.slot 0 = .dead)
    (e : w.step dv c = some (r, w')) :
    aw (c.exec dv) (fun r' m' => r' = r ∧ InOrder dv w'.slot w'.res m') m ∧ w'.slot 0 = .dead := by
  have hz : ∀ {o : Nat}, (w.slot o).alive = true → o ≠ 0 := by rintro o ha rfl; rw [h0] at ha; cases ha
  have hz2 : ∀ {o : Nat} {s : Slot V}, o ≠ 0 → upd w.slot o s 0 = .dead := fun ho => by rw [upd_ne _ _ (Ne.symm ho)]; exact h0
  have hh := h
  obtain ⟨g, C, h⟩ := h
  cases c with
  | construct o =>
    simp only [World.step] at e
    split at e
    · next hc =>
      cases e
      refine ⟨?_, hz2 hc.1⟩
      obtain ⟨hn, hCo, -⟩ := (h.rel o).dead_of hc.2
      refine aw_bind (aw_newObj hn (aw_pure ⟨rfl, g, C, ?_⟩))
      have := (h.born (o := o) (ob := Obj.new) hn rfl).close (as := []) (by rw [upd_nil hCo]; exact h.wld) (s := .live mk) (by
        simp only [upd_same]; exact crel_mk rfl rfl rfl)
      rw [upd_nil hCo, inval_dead h hn] at this
      exact this
    · cases e
  | destruct o =>
    simp only [World.step] at e
    split at e
    · next hc =>
      cases e
      exact ⟨aw_bind (aw_mono (aw_destruct h hc) fun _ m' h' => aw_pure ⟨rfl, h'⟩), hz2 (hz hc)⟩
    · cases e
  | copy o r =>
    simp only [World.step] at e
    split at e
    · next hc =>
      cases e
      exact ⟨aw_bind (aw_mono (aw_copy h hc.2.1 hc.2.2) fun _ m' h' => aw_pure ⟨rfl, h'⟩), hz2 hc.1⟩
    · cases e
  | move o r =>
    simp only [World.step] at e
    split at e
    · next hc =>
      cases e
      refine ⟨aw_bind (aw_mono (aw_move h hc.2.1 hc.2.2) fun _ m' h' => aw_pure ⟨rfl, h'⟩), ?_⟩
      show upd (upd w.slot o _) r _ 0 = _
      rw [upd_ne _ _ (Ne.symm (hz hc.2.2))]; exact hz2 hc.1
    · cases e
  | assignCopy o r =>
    simp only [World.step] at e
    split at e
    · next hc =>
      cases e
      exact ⟨aw_bind (aw_mono (aw_assignCopy hh h0 hc.1 hc.2) fun _ m' h' => aw_pure ⟨rfl, h'⟩), hz2 (hz hc.1)⟩
    · cases e
  | assignMove o r =>
    simp only [World.step] at e
    split at e
    · next hc =>
      cases e
      refine ⟨aw_bind (aw_mono (aw_assignMove hh h0 hc.1 hc.2) fun _ m' h' => aw_pure ⟨rfl, h'⟩), ?_⟩
      show upd (upd w.slot r _) o _ 0 = _
      rw [upd_ne _ _ (Ne.symm (hz hc.1))]; exact hz2 (hz hc.2)
    · cases e
  | swap a b =>
    simp only [World.step] at e
    split at e
    · next hc =>
      cases e
      refine ⟨aw_bind (aw_mono (aw_swap h hc.1 hc.2) fun _ m' h' => aw_pure ⟨rfl, h'⟩), ?_⟩
      show upd (upd w.slot a _) b _ 0 = _
      rw [upd_ne _ _ (Ne.symm (hz hc.2))]; exact hz2 (hz hc.1)
    · cases e
  | insert o s t v =>
    simp only [World.step] at e
    split at e
    · next hc =>
      have hi := aw_insert h hc s t v
      cases ei : Mdds.SegTree.insert s t v (w.slot o).val with
      | ok st =>
        simp only [ei] at e hi
        cases e
        refine ⟨aw_bind (aw_mono hi fun b m' h' => ?_), hz2 (hz hc)⟩
        obtain ⟨rfl, h'⟩ := h'
        exact aw_pure ⟨rfl, h'⟩
      | err x =>
        simp only [ei] at e hi
        cases e
        refine ⟨aw_bind (aw_mono hi fun b m' h' => ?_), h0⟩
        obtain ⟨rfl, h'⟩ := h'
        exact aw_pure ⟨rfl, h'⟩
      | ub =>
        simp only [ei] at e hi
        cases e
        refine ⟨aw_bind (aw_mono hi fun b m' h' => ?_), h0⟩
        obtain ⟨rfl, h'⟩ := h'
        exact aw_pure ⟨rfl, h'⟩
    · cases e
  | build o =>
    simp only [World.step] at e
    split at e
    · next hc =>
      cases e
      exact ⟨aw_bind (aw_mono (aw_buildC h hc) fun _ m' h' => aw_pure ⟨rfl, h'⟩), hz2 (hz hc)⟩
    · cases e
  | search x o pt =>
    simp only [World.step] at e
    split at e
    · next st hs =>
      cases e
      obtain ⟨ob, ho, -⟩ := (h.rel o).base (by rw [hs]; rfl)
      have hrel := h.rel o
      rw [ho, hs] at hrel
      exact ⟨aw_bind (aw_mono (h.aw_search ho hrel x pt) fun _ m' h' => aw_pure ⟨rfl, g, C, h'⟩), h0⟩
    · cases e
  | read x =>
    simp only [World.step] at e
    split at e
    · next p is hr =>
      cases e
      refine ⟨?_, h0⟩
      obtain ⟨ob, segs, e1, e2, ha⟩ := h.aw_read hr
      refine aw_bind (aw_mono ha ?_)
      rintro _ _ ⟨rfl, rfl⟩
      refine aw_pure ⟨?_, hh⟩
      have hal : (w.slot p).alive = true := by
        by_contra hn
        have := ((h.rel p).dead_of (by simpa using hn)).1
        rw [e1] at this; cases this
      obtain ⟨ob', ho', b⟩ := (h.rel p).base hal
      rw [e1] at ho'
      cases ho'
      rw [← b.store, filterMap_of_mapM _ _ e2]
    · cases e
  | erase o x k =>
    simp only [World.step] at e
    split at e
    · next st p is hs hr =>
      split at e
      · next hp =>
        subst hp
        split at e
        · next pos hk =>
          have ha := aw_erase h hs hr hk
          refine ⟨?_, ?_⟩
          · refine aw_bind (aw_mono ha fun _ m' h' => ?_)
            obtain ⟨st', e1, h'⟩ := h'
            simp only [e1] at e
            cases e
            exact aw_pure ⟨rfl, h'⟩
          · obtain ⟨_, _, _, st', e1, _⟩ := ha
            simp only [e1] at e
            cases e
            exact hz2 (hz (by rw [hs]; rfl))
        · cases e
      · cases e
    · cases e
  | eraseIf o pred =>
    simp only [World.step] at e
    cases hs : w.slot o with
    | dead => rw [hs] at e; cases e
    | moved =>
      rw [hs] at e
      cases e
      have ha := aw_eraseIfC h (o := o) (by rw [hs]; rfl) pred
      rw [hs] at ha
      refine ⟨aw_bind (aw_mono ha fun n m' h' => ?_), hz2 (hz (by rw [hs]; rfl))⟩
      obtain ⟨rfl, h'⟩ := h'
      refine aw_pure ⟨rfl, ?_⟩
      show InOrder dv (upd w.slot o .moved) _ m'
      rw [← hs, upd_self]; exact h'
    | live st =>
      rw [hs] at e
      have ha := aw_eraseIfC h (o := o) (by rw [hs]; rfl) pred
      rw [hs] at ha
      refine ⟨?_, ?_⟩
      · refine aw_bind (aw_mono ha fun n m' h' => ?_)
        obtain ⟨st', e1, h'⟩ := h'
        simp only [e1] at e
        cases e
        exact aw_pure ⟨rfl, h'⟩
      · obtain ⟨_, _, _, st', e1, _⟩ := ha
        simp only [e1] at e
        cases e
        exact hz2 (hz (by rw [hs]; rfl))
  | clear o =>
    simp only [World.step] at e
    split at e
    · next hc =>
      cases e
      exact ⟨aw_bind (aw_mono (aw_clear h hc) fun _ m' h' => aw_pure ⟨rfl, h'⟩), hz2 (hz hc)⟩
    · cases e
  | leafSize o =>
    simp only [World.step] at e
    split at e
    · next hc =>
      cases e
      obtain ⟨ob, ho, b⟩ := (h.rel o).base hc
      refine ⟨aw_bind (aw_getObj ho (aw_bind (aw_leaves (wp_countLeaves (h.wld.st o) (aw_pure ⟨?_, hh⟩))))), h0⟩
      unfold leafSize
      rw [← b.keys]
      simp
    · cases e
  | check o =>
    simp only [World.step] at e
    cases hs : w.slot o with
    | dead => rw [hs] at e; cases e
    | moved =>
      rw [hs] at e
      cases e
      obtain ⟨ob, ho, -⟩ := (h.rel o).base (by rw [hs]; rfl)
      have hrel := h.rel o
      rw [ho, hs] at hrel
      refine ⟨aw_bind (aw_mono (aw_check h ho (by rw [hrel.2.2.1]; simp)) ?_), h0⟩
      rintro _ _ ⟨rfl, rfl⟩
      exact aw_pure ⟨rfl, hh⟩
    | live st =>
      rw [hs] at e
      simp only at e
      split at e
      · next hc =>
        cases e
        obtain ⟨ob, ho, b⟩ := (h.rel o).base (by rw [hs]; rfl)
        have hrel := h.rel o
        rw [ho, hs] at hrel
        have hrel : CRel dv g.W g.K m.nl (C o) ob st := hrel
        refine ⟨aw_bind (aw_mono (aw_check h ho ?_) ?_), h0⟩
        · intro t ht q hq
          cases hr : st.root with
          | some t' =>
            obtain ⟨S, tr⟩ := hrel.tree t' hr
            have := tr.marked t ht q hq
            exact ⟨(tr.own this.1).1, (tr.own this.1).2, this.2⟩
          | none =>
            have hc : st.tagged = [] := by simpa [hr] using hc
            rw [hrel.stale hr hc] at ht
            simp at ht
        · rintro _ _ ⟨rfl, rfl⟩
          exact aw_pure ⟨rfl, hh⟩
      · cases e

theorem run_ok {w w' : World V} {cs : List (Cmd V)} {out : List (Ret V)} (h : InOrder dv w.slot w.res m) (h0 : w.slot 0 = .dead)
    (e : w.run dv cs = some (out, w')) :
    aw (runP dv cs) (fun r m' => r = out ∧ InOrder dv w'.slot w'.res m') m := by
  induction cs generalizing w m out with
  | nil => cases e; exact aw_ret ⟨rfl, h⟩
  | cons c cs ih =>
    simp only [World.run] at e
    cases es : w.step dv c with
    | none => rw [es] at e; cases e
    | some x =>
      obtain ⟨r, w1⟩ := x
      rw [es] at e
      simp only [Option.map_eq_some_iff] at e
      obtain ⟨⟨out1, w2⟩, e1, e2⟩ := e
      cases e2
      obtain ⟨hs, h1⟩ := step_ok h h0 es
      refine aw_bind (aw_mono hs fun r' m' h' => ?_)
      obtain ⟨rfl, h'⟩ := h'
      refine aw_bind (aw_mono (ih h' h1 e1) fun rs m2 h2 => ?_)
      obtain ⟨rfl, h2⟩ := h2
      exact aw_pure ⟨rfl, h2⟩

end

theorem inOrder_empty (dv : V) : InOrder dv (World.empty : World V).slot (World.empty : World V).res empty := by
  obtain ⟨g, w, hL⟩ := Mdds.FST.Mem.wl_empty (none : Chain)
  exact ⟨g, _, w, fun p => by simp [World.empty, empty, SRel], fun p ob h => by simp [empty] at h,
    fun p p' ob ob' h => by simp [empty] at h, fun q h => by simp [empty] at h, fun x p is h => by simp [World.empty] at h⟩

end Mdds.SegTree.Mem
