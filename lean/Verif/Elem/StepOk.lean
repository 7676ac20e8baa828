import Verif.Elem.Steps

/-! # Element blocks: one legal call -/
namespace Mdds.Elem
open Mdds

variable {V : Type}

theorem all_cut {l : List α} {f : α → Bool} (h : l.all f) (p n : Nat) : (cut l p n).all f := by
  simp only [List.all_eq_true] at h ⊢
  intro x hx
  exact h x (List.mem_of_mem_drop (List.mem_of_mem_take hx))

theorem all_over {l r : List α} {f : α → Bool} (h : l.all f) (hr : r.all f) (p : Nat) : (over l p r).all f := by
  simp only [List.all_eq_true] at h hr ⊢
  intro x hx
  simp only [over, List.mem_append] at hx
  rcases hx with (hx | hx) | hx
  · exact h x (List.mem_of_mem_take hx)
  · exact hr x hx
  · exact h x (List.mem_of_mem_drop hx)

theorem fits_dflt (cfg : Cfg V) (k : Kind V) : k.fits (cfg.dflt k) = true := by
  cases k <;> rfl

theorem fits_ptrs {k : Kind V} (hk : k ≠ .plain) (n m : Nat) : (ptrs n m : List (Cell V)).all k.fits := by
  simp only [List.all_eq_true, ptrs, List.mem_map]
  rintro _ ⟨i, _, rfl⟩
  cases k with
  | plain => exact absurd rfl hk
  | managed => rfl
  | noncopyable => rfl

theorem all_append' {f : α → Bool} {l r : List α} (hl : l.all f) (hr : r.all f) : (l ++ r).all f := by
  rw [List.all_append, hl, hr]; rfl

theorem all_replicate' {f : α → Bool} {x : α} (h : f x = true) (n : Nat) : (List.replicate n x).all f := by
  simp only [List.all_eq_true]
  intro y hy
  rw [List.eq_of_mem_replicate hy]; exact h

theorem all_take {f : α → Bool} {l : List α} (hl : l.all f) (n : Nat) : (l.take n).all f := by
  simp only [List.all_eq_true] at hl ⊢
  exact fun x hx => hl x (List.mem_of_mem_take hx)

theorem all_drop {f : α → Bool} {l : List α} (hl : l.all f) (n : Nat) : (l.drop n).all f := by
  simp only [List.all_eq_true] at hl ⊢
  exact fun x hx => hl x (List.mem_of_mem_drop hx)

/-- What a call did: it returned the answer of the specification, and the states agree again. -/
def Did (cfg : Cfg V) (r : Result V) (t : Spec V × Ans V) : Prop :=
  ∃ w', r = .ok (w', t.2) ∧ Rep w' t.1 ∧ Ok cfg t.1

theorem rep_withObjs {w : World V} {s : Spec V} (h : Rep w s) (vs : List V) : Rep (w.withObjs vs) (s.alloc vs) :=
  ⟨h.blks, by simp [World.withObjs, Spec.alloc, h.objs, h.nextO], h.nextB, by simp [World.withObjs, Spec.alloc, h.nextO]⟩

theorem ok_alloc {cfg : Cfg V} {s : Spec V} (h : Ok cfg s) (vs : List V) : Ok cfg (s.alloc vs) := by
  refine ⟨h.fits, fun o ho => ?_⟩
  simp only [Spec.alloc, allocObjs] at ho ⊢
  split at ho
  · omega
  · have := h.fresh o ho; omega

theorem liveW {cfg : Cfg V} {w : World V} {s : Spec V} (h : Rep w s) (ho : Ok cfg s) {l : List (Cell V)}
    (hl : s.Live l) : LiveW w l :=
  ⟨fun c hc => by rw [h.objs]; exact hl c hc, fun o hs => by rw [h.nextO]; rw [h.objs] at hs; exact ho.fresh o hs⟩

theorem did_dup {cfg : Cfg V} {w : World V} {s : Spec V} (h : Rep w s) (ho : Ok cfg s) {x : Blk V} {y : SBlk V}
    (hx : x.cls = y.cls) {k : Class V} (hk : cfg.classes[y.cls]? = some k) (hp : k.kind ≠ .plain) (vs : List V) (d : Bool) :
    Did cfg (.ok ((w.withObjs vs).addBlk ⟨x.cls, .ofList d (ptrs w.nextO vs.length)⟩, .num w.nextB)) (s.dup y vs) := by
  refine ⟨_, by rw [h.nextB]; rfl, ?_, (ok_alloc ho vs).add hk (fits_ptrs hp _ _)⟩
  refine (rep_withObjs h vs).add ⟨hx, ?_⟩
  rw [h.nextO]
  exact Store.shows_ofList _ _

theorem did_copy {cfg : Cfg V} {w : World V} {s : Spec V} (h : Rep w s) (ho : Ok cfg s) {x : Blk V} {y : SBlk V} {b : Nat}
    (hb : s.blks b = some y) (hx : BlkRel x y) {k : Class V} (hk : cfg.classes[y.cls]? = some k) {fail : Option Nat}
    (hl : copyLegal s k y.cells fail) : Did cfg (copyBlk w k x fail) (sCopy s k y fail) := by
  have hfit : y.cells.all k.kind.fits := by
    obtain ⟨k', hk', hf⟩ := ho.fits b y hb
    rw [hk] at hk'; cases hk'; exact hf
  cases hkk : k.kind with
  | noncopyable f => simp only [copyBlk, sCopy, hkk]; exact ⟨w, rfl, h, ho⟩
  | plain =>
    simp only [copyLegal, hkk] at hl
    have hadd : Did cfg (.ok (w.addBlk x, .num w.nextB)) (s.add y.cls y.cells, .num s.nextB) :=
      ⟨_, by rw [h.nextB], h.add hx, ho.add hk hfit⟩
    cases fail with
    | none => simpa [copyBlk, sCopy, hkk] using hadd
    | some n =>
      have hn := hl n rfl
      have := hx.2.copied
      simp only [copyBlk, sCopy, hkk, Option.map_some, if_pos (Nat.lt_of_lt_of_le hn this), hn, decide_true, if_true]
      exact ⟨w, rfl, h, ho⟩
  | managed =>
    simp only [copyLegal, hkk] at hl
    have hlive := liveW h ho hl.1
    have hm : copiesMade fail y.cells.length = y.cells.length := by
      cases fail with
      | none => rfl
      | some n => have := hl.2 n rfl; simp [copiesMade]; omega
    have hv := valsOf_length hlive
    have hs : sCopy s k y fail = s.dup y (s.vals y.cells) := by
      simp only [sCopy, hkk]
      rw [if_neg]
      cases fail with
      | none => simp
      | some n => have := hl.2 n rfl; simp; omega
    have he : copyBlk w k x fail = .ok ((w.withObjs (valsOf w.objs y.cells)).addBlk
        ⟨x.cls, .ofList k.delayed (ptrs w.nextO (valsOf w.objs y.cells).length)⟩, .num w.nextB) := by
      simp only [copyBlk, hkk, hx.2.toList, copyLoop_eq hlive, hm, Nat.lt_irrefl, decide_false]
      rw [List.take_of_length_le (Nat.le_of_eq hv), hv]
    rw [he, hs]
    have : s.vals y.cells = valsOf w.objs y.cells := by rw [h.objs]; rfl
    rw [this]
    exact did_dup h ho hx.1 hk (by rw [hkk]; nofun) _ _

theorem did_clone {cfg : Cfg V} {w : World V} {s : Spec V} (h : Rep w s) (ho : Ok cfg s) {x : Blk V} {y : SBlk V} {b : Nat}
    (hb : s.blks b = some y) (hx : BlkRel x y) {k : Class V} (hk : cfg.classes[y.cls]? = some k) {fail : Option Nat}
    (hl : copyLegal s k y.cells fail) (hn : ∀ f, k.kind = .noncopyable f → s.Live y.cells) :
    Did cfg (cloneBlk w k x fail) (sClone s k y fail) := by
  cases hkk : k.kind with
  | plain => simpa only [cloneBlk, sClone, hkk] using did_copy h ho hb hx hk hl
  | managed => simpa only [cloneBlk, sClone, hkk] using did_copy h ho hb hx hk hl
  | noncopyable f =>
    cases f with
    | none => simp only [cloneBlk, sClone, hkk]; exact ⟨w, rfl, h, ho⟩
    | some f =>
      have hlive := liveW h ho (hn _ hkk)
      have hv : s.vals y.cells = valsOf w.objs y.cells := by rw [h.objs]; rfl
      simp only [cloneBlk, sClone, hkk, hx.2.toList, cloneLoop_eq hlive, hv, clones_eq]
      generalize clonesL f [] (valsOf w.objs y.cells) = r
      have hlen : (r.takeWhile Option.isSome).length = ((r.takeWhile Option.isSome).filterMap id).length :=
        (filterMap_isSome_length _ (takeWhile_isSome r)).symm
      cases hr : r.all Option.isSome with
      | true =>
        simp only [Bool.not_true, if_true]
        rw [hlen, takeWhile_all r hr]
        exact did_dup h ho hx.1 hk (by rw [hkk]; nofun) _ _
      | false =>
        simp only [Bool.not_false]
        rw [hlen, del_new hlive.fresh]
        refine ⟨_, rfl, ⟨h.blks, h.objs, h.nextB, by simp [h.nextO]⟩, ⟨ho.fits, fun o hs => ?_⟩⟩
        have := ho.fresh o hs
        simp
        omega

theorem rep_destroy {w : World V} {s : Spec V} (h : Rep w s) (l : List (Cell V)) :
    Rep { w with objs := without w.objs l } (s.destroy l) :=
  ⟨h.blks, by simp only [Spec.destroy, h.objs]; rfl, h.nextB, h.nextO⟩

theorem ok_destroy {cfg : Cfg V} {s : Spec V} (h : Ok cfg s) (l : List (Cell V)) : Ok cfg (s.destroy l) := by
  refine ⟨h.fits, fun o ho => h.fresh o ?_⟩
  simp only [Spec.destroy] at ho
  split at ho
  · cases ho
  · exact ho

theorem rep_del {w : World V} {s : Spec V} (h : Rep w s) (b : Nat) :
    Rep (w.delBlk b) { s with blks := fun i => if i = b then none else s.blks i } := by
  refine ⟨fun i => ?_, h.objs, h.nextB, h.nextO⟩
  simp only [World.delBlk]
  split
  · exact .none
  · exact h.blks i

theorem ok_del {cfg : Cfg V} {s : Spec V} (h : Ok cfg s) (b : Nat) :
    Ok cfg { s with blks := fun i => if i = b then none else s.blks i } := by
  refine ⟨fun i y hy => ?_, h.fresh⟩
  simp only at hy
  split at hy
  · cases hy
  · exact h.fits i y hy

/-- A plain block has no pointers, so nothing is destroyed with it. -/
theorem destroy_plain {s : Spec V} {k : Class V} (hk : k.kind = .plain)
    {l : List (Cell V)} (hl : l.all k.kind.fits) : s.destroy l = s := by
  have : ∀ o, pointsTo l o = false := by
    intro o
    rw [Bool.eq_false_iff]
    intro hp
    have := List.all_eq_true.1 hl _ (pointsTo_iff.1 hp)
    rw [hk] at this
    cases this
  refine spec_ext (fun _ => rfl) ?_ rfl rfl
  funext o
  simp [Spec.destroy, this]

theorem is_get {cfg : Cfg V} {w : World V} {s : Spec V} (h : Rep w s) {c b : Nat} {xs : List (Cell V)}
    (hi : s.Is cfg c b xs) : ∃ x y k, w.blks b = some x ∧ s.blks b = some y ∧ BlkRel x y ∧ x.cls = c ∧
      cfg.classes[y.cls]? = some k ∧ xs.all k.kind.fits ∧ (∀ f, cast cfg w c b f = f k x) := by
  obtain ⟨hc, k, hk, hx⟩ := hi
  cases hb : s.blks b with
  | none => simp [hb] at hc
  | some y =>
    simp only [hb, Option.map_some, Option.some.injEq] at hc
    obtain ⟨x, hw, r⟩ := h.get hb
    have hxc : x.cls = c := by rw [r.1, hc]
    exact ⟨x, y, k, hw, rfl, r, hxc, by rw [hc, hk], hx, fun f => cast_eq hw hxc hk f⟩

theorem isSome_get {cfg : Cfg V} (hd : cfg.Distinct) {w : World V} {s : Spec V} (h : Rep w s) (ho : Ok cfg s) {b : Nat}
    (hi : (s.blks b).isSome) : ∃ x y k, w.blks b = some x ∧ s.blks b = some y ∧ BlkRel x y ∧
      cfg.classes[y.cls]? = some k ∧ y.cells.all k.kind.fits ∧ (∀ f, dispatch cfg w b f = f k x) := by
  obtain ⟨y, hb⟩ := Option.isSome_iff_exists.1 hi
  obtain ⟨x, hw, r⟩ := h.get hb
  obtain ⟨k, hk, hf⟩ := ho.fits b y hb
  exact ⟨x, y, k, hw, hb, r, hk, hf, fun f => dispatch_eq hd hw (by rw [r.1, hk]) f⟩

theorem did_store {cfg : Cfg V} {w : World V} {s : Spec V} (h : Rep w s) (ho : Ok cfg s) {b : Nat} {y : SBlk V}
    (hb : s.blks b = some y) {k : Class V} (hk : cfg.classes[y.cls]? = some k) {x : Blk V} (hx : BlkRel x y)
    {r : Outcome (Store (Cell V))} {l : List (Cell V)} (hr : ∃ st, r = .ok st ∧ st.Shows l)
    (hl : l.all k.kind.fits) : Did cfg (w.store b x r) (s.set b l, .unit) :=
  store_step h ho hb hk hx.1 hr hl

/-- The source block of a call with two blocks. -/
theorem source_eq {w : World V} {s : Spec V} (h : Rep w s) {d b : Nat} (hdb : d ≠ b) {x : Blk V} {y z : SBlk V}
    (hx : BlkRel x y) (hb : s.blks b = some z) (hc : y.cls = z.cls) (f : Store (Cell V) → Result V) :
    ∃ st, source w d b x f = f st ∧ st.Shows z.cells := by
  obtain ⟨x', hw, r⟩ := h.get hb
  exact ⟨x'.store, by simp only [source, hw]; rw [if_pos ⟨hdb, by rw [r.1, hx.1, hc]⟩], r.2⟩

theorem ifFits_eq {k : Class V} {xs : List (Cell V)} (h : xs.all k.kind.fits) (r : Result V) : ifFits k xs r = r := by
  simp only [ifFits, if_pos h]

/-- **One legal call.** -/
theorem step_ok [DecidableEq V] {cfg : Cfg V} (hd : cfg.Distinct) {w : World V} {s : Spec V} (h : Rep w s) (ho : Ok cfg s)
    {c : Cmd V} (hl : Legal cfg s c) : Did cfg (step cfg w c) (sStep cfg s c) := by
  cases c with
  | newObj v =>
    refine ⟨w.addObj v, by simp only [step, sStep, h.nextO], ?_, ok_alloc ho _⟩
    have := rep_withObjs h [v]
    rwa [← withObjs_cons, withObjs_nil] at this
  | create ty n =>
    simp only [step, sStep]
    cases hf : cfg.find ty with
    | none => exact ⟨w, rfl, h, ho⟩
    | some c =>
      have hlt : c < cfg.classes.length := by
        simp only [Cfg.find] at hf
        exact (List.findIdx?_eq_some_iff_getElem.1 hf).1
      have hk : cfg.classes[c]? = some cfg.classes[c] := List.getElem?_eq_getElem hlt
      simp only [hk]
      exact ⟨_, by rw [h.nextB], h.add ⟨rfl, Store.shows_ofList _ _⟩, ho.add hk (all_replicate' (fits_dflt _ _) _)⟩
  | copy b fail =>
    obtain ⟨y, k, hb, hk, hc⟩ := hl
    obtain ⟨x, hw, r⟩ := h.get hb
    have hkx : cfg.classes[x.cls]? = some k := by rw [r.1, hk]
    simp only [step, sStep, dispatch_eq hd hw hkx, hb, Spec.cls, Option.bind_some, hk]
    exact did_copy h ho hb r hk hc
  | clone b fail =>
    obtain ⟨y, k, hb, hk, hc, hn⟩ := hl
    obtain ⟨x, hw, r⟩ := h.get hb
    have hkx : cfg.classes[x.cls]? = some k := by rw [r.1, hk]
    simp only [step, sStep, dispatch_eq hd hw hkx, hb, Spec.cls, Option.bind_some, hk]
    exact did_clone h ho hb r hk hc hn
  | isCopyable b =>
    obtain ⟨x, y, k, hw, hb, r, hk, hf, hdis⟩ := isSome_get hd h ho hl
    simp only [step, sStep, hdis, Spec.cls, hb, Option.bind_some, hk]
    obtain ⟨i, kd, dl⟩ := k
    cases kd <;> exact ⟨w, rfl, h, ho⟩
  | delete b =>
    cases b with
    | none => exact ⟨w, rfl, h, ho⟩
    | some b =>
      obtain ⟨y, k, hb, hk, hc⟩ := hl
      obtain ⟨x, hw, r⟩ := h.get hb
      have hkx : cfg.classes[x.cls]? = some k := by rw [r.1, hk]
      have hfit : y.cells.all k.kind.fits := by
        obtain ⟨k', hk', hf⟩ := ho.fits b y hb
        rw [hk] at hk'; cases hk'; exact hf
      simp only [step, sStep, dispatch_eq hd hw hkx, cells_eq hb, deleteBlk, r.2.toList]
      have key : s.Owned y.cells → Did cfg (match delCells w y.cells with
          | .ok w' => .ok (w'.delBlk b, .unit)
          | .err e => .err e
          | .ub => .ub) ({ s.destroy y.cells with blks := fun i => if i = b then none else s.blks i }, .unit) := by
        intro how
        rw [delCells_eq (by rw [h.objs]; exact how.1) how.2]
        exact ⟨_, rfl, rep_del (rep_destroy h _) b, ok_del (ok_destroy ho _) b⟩
      cases hkk : k.kind with
      | plain =>
        rw [destroy_plain hkk hfit]
        exact ⟨_, rfl, rep_del h b, ok_del ho b⟩
      | managed => exact key (hc.resolve_left (by rw [hkk]; nofun))
      | noncopyable f => exact key (hc.resolve_left (by rw [hkk]; nofun))
  | resize b n =>
    obtain ⟨x, y, k, hw, hb, r, hk, hf, hdis⟩ := isSome_get hd h ho hl
    simp only [step, sStep, hdis, cells_eq hb, Spec.cls, hb, Option.bind_some, hk]
    refine did_store h ho hb hk r ?_ (all_append' (all_take hf n) (all_replicate' (fits_dflt _ _) _))
    obtain ⟨st, e, sh⟩ := r.2.resize (cfg.dflt k.kind) n
    simp only [resizeStore, e, chain]
    split
    · exact sh.shrink
    · exact ⟨st, rfl, sh⟩
  | erase b pos =>
    obtain ⟨x, y, k, hw, hb, r, hk, hf, hdis⟩ := isSome_get hd h ho hl.1
    have hp := hl.2
    rw [cells_eq hb] at hp
    simp only [step, sStep, hdis, cells_eq hb]
    refine did_store h ho hb hk r (r.2.erase1 hp) ?_
    rw [List.eraseIdx_eq_take_drop_succ]
    exact all_append' (all_take hf _) (all_drop hf _)
  | eraseN b pos n =>
    obtain ⟨x, y, k, hw, hb, r, hk, hf, hdis⟩ := isSome_get hd h ho hl.1
    have hp := hl.2
    rw [cells_eq hb] at hp
    simp only [step, sStep, hdis, cells_eq hb]
    exact did_store h ho hb hk r (r.2.erase2 (by omega) hp) (all_append' (all_take hf _) (all_drop hf _))
  | appendBlock d b =>
    obtain ⟨hdb, y, z, hy, hz, hc⟩ := hl
    obtain ⟨x, y', k, hw, hb, r, hk, hf, hdis⟩ := isSome_get hd h ho (b := d) (by simp [hy])
    obtain rfl : y = y' := by rw [hy] at hb; exact Option.some.inj hb
    have hfz : z.cells.all k.kind.fits := by
      obtain ⟨k', hk', hf'⟩ := ho.fits b z hz
      rw [← hc, hk] at hk'; cases hk'; exact hf'
    simp only [step, sStep, hdis, cells_eq hb, cells_eq hz]
    obtain ⟨st, e, sh⟩ := source_eq h hdb r hz hc (fun y => w.store d x (appendStore x.store y))
    rw [e]
    refine did_store h ho hb hk r ?_ (all_append' hf hfz)
    simp only [appendStore, sh.toList]
    exact r.2.insertEnd _
  | appendFrom d b pos len =>
    obtain ⟨hdb, ⟨y, z, hy, hz, hc⟩, hp⟩ := hl
    rw [cells_eq hz] at hp
    obtain ⟨x, y', k, hw, hb, r, hk, hf, hdis⟩ := isSome_get hd h ho (b := d) (by simp [hy])
    obtain rfl : y = y' := by rw [hy] at hb; exact Option.some.inj hb
    have hfz : z.cells.all k.kind.fits := by
      obtain ⟨k', hk', hf'⟩ := ho.fits b z hz
      rw [← hc, hk] at hk'; cases hk'; exact hf'
    simp only [step, sStep, hdis, cells_eq hb, cells_eq hz]
    obtain ⟨st, e, sh⟩ := source_eq h hdb r hz hc (fun y => w.store d x (appendFromStore x.store y pos len))
    rw [e]
    refine did_store h ho hb hk r ?_ (all_append' hf (all_cut hfz _ _))
    simp only [appendFromStore, sh.range hp, r.2.size]
    obtain ⟨s1, e1, sh1⟩ := r.2.reserve (y.cells.length + len)
    simp only [chain, e1]
    exact sh1.insertEnd _
  | assignFrom d b pos len =>
    obtain ⟨hdb, ⟨y, z, hy, hz, hc⟩, hp⟩ := hl
    rw [cells_eq hz] at hp
    obtain ⟨x, y', k, hw, hb, r, hk, hf, hdis⟩ := isSome_get hd h ho (b := d) (by simp [hy])
    obtain rfl : y = y' := by rw [hy] at hb; exact Option.some.inj hb
    have hfz : z.cells.all k.kind.fits := by
      obtain ⟨k', hk', hf'⟩ := ho.fits b z hz
      rw [← hc, hk] at hk'; cases hk'; exact hf'
    simp only [step, sStep, hdis, cells_eq hz]
    obtain ⟨st, e, sh⟩ := source_eq h hdb r hz hc (fun y => w.store d x (assignFromStore x.store y pos len))
    rw [e]
    refine did_store h ho hb hk r ?_ (all_cut hfz _ _)
    simp only [assignFromStore, sh.range hp]
    exact r.2.assign _
  | prependFrom d b pos len =>
    obtain ⟨hdb, ⟨y, z, hy, hz, hc⟩, hp⟩ := hl
    rw [cells_eq hz] at hp
    obtain ⟨x, y', k, hw, hb, r, hk, hf, hdis⟩ := isSome_get hd h ho (b := d) (by simp [hy])
    obtain rfl : y = y' := by rw [hy] at hb; exact Option.some.inj hb
    have hfz : z.cells.all k.kind.fits := by
      obtain ⟨k', hk', hf'⟩ := ho.fits b z hz
      rw [← hc, hk] at hk'; cases hk'; exact hf'
    simp only [step, sStep, hdis, cells_eq hb, cells_eq hz]
    obtain ⟨st, e, sh⟩ := source_eq h hdb r hz hc (fun y => w.store d x (prependFromStore x.store y pos len))
    rw [e]
    refine did_store h ho hb hk r ?_ (all_append' (all_cut hfz _ _) hf)
    simp only [prependFromStore, sh.range hp, r.2.size]
    obtain ⟨s1, e1, sh1⟩ := r.2.reserve (y.cells.length + len)
    simp only [chain, e1]
    simpa using sh1.insert (Nat.zero_le _) (cut z.cells pos len)
  | swapValues b1 b2 p1 p2 len =>
    obtain ⟨⟨y, z, hy, hz, hc⟩, h1, h2, hdis'⟩ := hl
    rw [cells_eq hy] at h1
    rw [cells_eq hz] at h2
    obtain ⟨x, y', k, hw, hb, r, hk, hf, hdis⟩ := isSome_get hd h ho (b := b1) (by simp [hy])
    obtain rfl : y = y' := by rw [hy] at hb; exact Option.some.inj hb
    obtain ⟨x2, hw2, r2⟩ := h.get hz
    have hfz : z.cells.all k.kind.fits := by
      obtain ⟨k', hk', hf'⟩ := ho.fits b2 z hz
      rw [← hc, hk] at hk'; cases hk'; exact hf'
    obtain ⟨w', e, rep⟩ := swapLoop_ok h hy hz len h1 h2 hdis'
    refine ⟨w', ?_, rep, ?_⟩
    · simp only [step, hdis, hw2]
      rw [if_pos (by rw [r2.1, r.1, hc]), e]
      rfl
    · show Ok cfg (sSwap s b1 b2 p1 p2 len)
      unfold sSwap
      rw [cells_eq hy, cells_eq hz]
      have a1 := ho.set hy hk (l := over y.cells p1 (cut z.cells p2 len)) (all_over hf (all_cut hfz _ _) _)
      by_cases hbb : b2 = b1
      · subst hbb
        have hb2 : (s.set b2 (over y.cells p1 (cut z.cells p2 len))).blks b2 = some ⟨y.cls, over y.cells p1 (cut z.cells p2 len)⟩ := by
          rw [set_blks hy, if_pos rfl]
        exact a1.set hb2 hk (by
          rw [cells_eq hb2]; exact all_over (all_over hf (all_cut hfz _ _) _) (all_cut hf _ _) _)
      · have hb2 : (s.set b1 (over y.cells p1 (cut z.cells p2 len))).blks b2 = some z := by
          rw [set_blks hy, if_neg hbb, hz]
        exact a1.set hb2 (k := k) (by rw [← hc, hk]) (by
          rw [cells_eq hb2]; exact all_over hfz (all_cut hf _ _) _)
  | equal l r =>
    obtain ⟨y, z, hy, hz, hlv⟩ := hl
    obtain ⟨x, hwx, rx⟩ := h.get hy
    obtain ⟨x', hwz, rz⟩ := h.get hz
    obtain ⟨k, hk, hf⟩ := ho.fits l y hy
    obtain ⟨k', hk', hf'⟩ := ho.fits r z hz
    have hkx : cfg.classes[x.cls]? = some k := by rw [rx.1, hk]
    simp only [step, sStep, hwx, hwz, hy, hz, Cfg.idOf, rx.1, rz.1, hk, hk', Option.map_some]
    by_cases hcc : y.cls = z.cls
    · have : k = k' := by rw [hcc, hk'] at hk; exact (Option.some.inj hk).symm
      subst this
      have hcx : x'.cls = x.cls := by rw [rx.1, rz.1, hcc]
      rw [if_neg (by simp), dispatch_eq hd hwx hkx]
      rw [if_pos (by rw [rx.1, hcc]), if_neg (not_not_intro hcc)]
      simp only [equalBlk, rx.2.toList, rz.2.toList, Spec.cls, hy, Option.bind_some, hk]
      obtain ⟨i, kd, dl⟩ := k
      cases kd with
      | plain => exact ⟨w, rfl, h, ho⟩
      | managed => exact ⟨w, rfl, h, ho⟩
      | noncopyable f =>
        obtain ⟨lv1, lv2⟩ := hlv _ f hk rfl
        have l1 := liveW h ho lv1
        have l2 := liveW h ho lv2
        simp only [Spec.vals, ← h.objs]
        by_cases hlen : y.cells.length = z.cells.length
        · rw [if_pos hlen, equalObjs_eq l1 l2 hlen]
          exact ⟨w, rfl, h, ho⟩
        · rw [if_neg hlen]
          refine ⟨w, ?_, h, ho⟩
          have : valsOf w.objs y.cells ≠ valsOf w.objs z.cells := by
            intro e
            have := congrArg List.length e
            rw [valsOf_length l1, valsOf_length l2] at this
            exact hlen this
          simp [this]
    · have hid : k.id ≠ k'.id := by
        intro e
        have e1 := find_eq hd hk
        have e2 := find_eq hd hk'
        rw [e, e2] at e1
        exact hcc (Option.some.inj e1).symm
      rw [if_pos (by simpa using hid), if_pos hcc]
      exact ⟨w, rfl, h, ho⟩
  | overwrite b pos len =>
    obtain ⟨y, k, hb, hk, hc⟩ := hl
    obtain ⟨x, hw, r⟩ := h.get hb
    have hkx : cfg.classes[x.cls]? = some k := by rw [r.1, hk]
    simp only [step, sStep, dispatch_eq hd hw hkx, cells_eq hb, Spec.cls, hb, Option.bind_some, hk, overwriteBlk]
    have key : pos + len ≤ y.cells.length ∧ s.Owned (cut y.cells pos len) → Did cfg (match x.store.range pos len with
        | .ok l => match delCells w l with
          | .ok w' => .ok (w', .unit)
          | .err e => .err e
          | .ub => .ub
        | .err e => .err e
        | .ub => .ub) (s.destroy (cut y.cells pos len), .unit) := by
      rintro ⟨hp, how⟩
      rw [r.2.range hp]
      simp only
      rw [delCells_eq (by rw [h.objs]; exact how.1) how.2]
      exact ⟨_, rfl, rep_destroy h _, ok_destroy ho _⟩
    obtain ⟨i, kd, dl⟩ := k
    cases kd with
    | plain => exact ⟨w, rfl, h, ho⟩
    | managed => exact key (hc.resolve_left nofun)
    | noncopyable f => exact key (hc.resolve_left nofun)
  | shrink b =>
    obtain ⟨x, y, k, hw, hb, r, hk, hf, hdis⟩ := isSome_get hd h ho hl
    simp only [step, sStep, hdis]
    have := did_store h ho hb hk r r.2.shrink hf
    rwa [set_self hb rfl] at this
  | size b =>
    obtain ⟨x, y, k, hw, hb, r, hk, hf, hdis⟩ := isSome_get hd h ho hl
    simp only [step, sStep, hdis, r.2.size, cells_eq hb]
    exact ⟨w, rfl, h, ho⟩
  | createWith c n x =>
    obtain ⟨k, hk, hf⟩ := hl
    simp only [step, sStep, hk]
    rw [ifFits_eq (by simpa using hf)]
    simp only [createWithBlk]
    have hrep : (List.replicate n x).all k.kind.fits := all_replicate' hf n
    obtain ⟨i, kd, dl⟩ := k
    have key : kd ≠ .plain → Did cfg (if n > 1 then .ok (w, .threw .general)
        else if n = 1 then
          match (Store.ofList dl [Cell.ptr none]).setIdx 0 x with
          | .ok s => .ok (w.addBlk ⟨c, s⟩, .num w.nextB)
          | .err e => .err e
          | .ub => .ub
        else .ok (w.addBlk ⟨c, .ofList dl []⟩, .num w.nextB))
        (if n > 1 then (s, .threw .general) else (s.add c (List.replicate n x), .num s.nextB)) := by
      intro _
      by_cases h1 : n > 1
      · rw [if_pos h1, if_pos h1]; exact ⟨w, rfl, h, ho⟩
      · rw [if_neg h1, if_neg h1]
        by_cases h2 : n = 1
        · subst h2
          obtain ⟨st, e, sh⟩ := (Store.shows_ofList dl [(Cell.ptr none : Cell V)]).setIdx (i := 0) (by simp) x
          rw [if_pos rfl, e]
          exact ⟨_, by rw [h.nextB], h.add ⟨rfl, sh⟩, ho.add hk hrep⟩
        · have h3 : n = 0 := by omega
          subst h3
          rw [if_neg (by omega)]
          exact ⟨_, by rw [h.nextB], h.add ⟨rfl, Store.shows_ofList _ _⟩, ho.add hk hrep⟩
    cases kd with
    | plain => exact ⟨_, by rw [h.nextB], h.add ⟨rfl, Store.shows_ofList _ _⟩, ho.add hk hrep⟩
    | managed => exact key nofun
    | noncopyable f => exact key nofun
  | createFrom c xs =>
    obtain ⟨k, hk, hf⟩ := hl
    simp only [step, sStep, hk]
    rw [ifFits_eq hf]
    exact ⟨_, by rw [h.nextB], h.add ⟨rfl, Store.shows_ofList _ _⟩, ho.add hk hf⟩
  | at_ c b pos =>
    obtain ⟨x, y, k, hw, hb, r, hxc, hk, hf, hcast⟩ := is_get h hl
    simp only [step, sStep, hcast, r.2.at_, cells_eq hb]
    cases y.cells[pos]? <;> exact ⟨w, rfl, h, ho⟩
  | get c b pos =>
    obtain ⟨x, y, k, hw, hb, r, hxc, hk, hf, hcast⟩ := is_get h hl.1
    have hp := hl.2
    rw [cells_eq hb] at hp
    simp only [step, sStep, hcast, r.2.idx, cells_eq hb, List.getElem?_eq_getElem hp]
    exact ⟨w, rfl, h, ho⟩
  | set c b pos v =>
    obtain ⟨x, y, k, hw, hb, r, hxc, hk, hf, hcast⟩ := is_get h hl.1
    have hp := hl.2
    rw [cells_eq hb] at hp
    obtain ⟨k', hk', hfy⟩ := ho.fits b y hb
    rw [hk] at hk'; cases hk'
    simp only [step, sStep, hcast, cells_eq hb, ifFits_eq hf]
    refine did_store h ho hb hk r (r.2.setIdx hp v) ?_
    simp only [List.all_eq_true] at hfy ⊢
    intro a ha
    rcases List.mem_or_eq_of_mem_set ha with e | e
    · exact hfy a e
    · subst e; simpa using hf
  | push c b v =>
    obtain ⟨x, y, k, hw, hb, r, hxc, hk, hf, hcast⟩ := is_get h hl
    obtain ⟨k', hk', hfy⟩ := ho.fits b y hb
    rw [hk] at hk'; cases hk'
    simp only [step, sStep, hcast, cells_eq hb, ifFits_eq hf]
    exact did_store h ho hb hk r ⟨_, rfl, r.2.push v⟩ (all_append' hfy hf)
  | prepend c b v =>
    obtain ⟨x, y, k, hw, hb, r, hxc, hk, hf, hcast⟩ := is_get h hl
    obtain ⟨k', hk', hfy⟩ := ho.fits b y hb
    rw [hk] at hk'; cases hk'
    simp only [step, sStep, hcast, cells_eq hb, ifFits_eq hf]
    exact did_store h ho hb hk r (by simpa using r.2.insert (Nat.zero_le _) [v]) (all_append' (l := [v]) hf hfy)
  | setMany c b pos xs =>
    obtain ⟨x, y, k, hw, hb, r, hxc, hk, hf, hcast⟩ := is_get h hl.1
    have hp := hl.2
    rw [cells_eq hb] at hp
    obtain ⟨k', hk', hfy⟩ := ho.fits b y hb
    rw [hk] at hk'; cases hk'
    simp only [step, sStep, hcast, cells_eq hb, ifFits_eq hf]
    exact did_store h ho hb hk r (setLoop_shows r.2 hp) (all_over hfy hf _)
  | pushMany c b xs =>
    obtain ⟨x, y, k, hw, hb, r, hxc, hk, hf, hcast⟩ := is_get h hl
    obtain ⟨k', hk', hfy⟩ := ho.fits b y hb
    rw [hk] at hk'; cases hk'
    simp only [step, sStep, hcast, cells_eq hb, ifFits_eq hf]
    exact did_store h ho hb hk r (r.2.insertEnd xs) (all_append' hfy hf)
  | prependMany c b xs =>
    obtain ⟨x, y, k, hw, hb, r, hxc, hk, hf, hcast⟩ := is_get h hl
    obtain ⟨k', hk', hfy⟩ := ho.fits b y hb
    rw [hk] at hk'; cases hk'
    simp only [step, sStep, hcast, cells_eq hb, ifFits_eq hf]
    exact did_store h ho hb hk r (by simpa using r.2.insert (Nat.zero_le _) xs) (all_append' hf hfy)
  | assignMany c b xs =>
    obtain ⟨x, y, k, hw, hb, r, hxc, hk, hf, hcast⟩ := is_get h hl
    simp only [step, sStep, hcast, ifFits_eq hf]
    exact did_store h ho hb hk r (r.2.assign xs) hf
  | insertMany c b pos xs =>
    obtain ⟨x, y, k, hw, hb, r, hxc, hk, hf, hcast⟩ := is_get h hl.1
    have hp := hl.2
    rw [cells_eq hb] at hp
    obtain ⟨k', hk', hfy⟩ := ho.fits b y hb
    rw [hk] at hk'; cases hk'
    simp only [step, sStep, hcast, cells_eq hb, ifFits_eq hf]
    exact did_store h ho hb hk r (r.2.insert hp xs) (all_append' (all_append' (all_take hfy _) hf) (all_drop hfy _))
  | values c b =>
    obtain ⟨x, y, k, hw, hb, r, hxc, hk, hf, hcast⟩ := is_get h hl
    simp only [step, sStep, hcast, r.2.toList, cells_eq hb]
    exact ⟨w, rfl, h, ho⟩
  | valuesRev c b =>
    obtain ⟨x, y, k, hw, hb, r, hxc, hk, hf, hcast⟩ := is_get h hl
    simp only [step, sStep, hcast, r.2.toListRev, cells_eq hb]
    exact ⟨w, rfl, h, ho⟩

end Mdds.Elem
