import Verif.Elem.Spec
import Verif.Ddv.Props
import Mathlib.Data.List.Nodup

/-! # Element blocks: stores show lists, and a call on the model does what the specification says -/
namespace Mdds.Elem
open Mdds

variable {V : Type}

namespace Store
variable {α : Type}

/-- The store shows the list. -/
def Shows : Store α → List α → Prop
  | .vec l', l => l' = l
  | .ddv d, l => Ddv.Shows d l

theorem shows_ofList (b : Bool) (l : List α) : (ofList b l).Shows l := by
  unfold ofList
  cases b
  · rfl
  · exact ⟨by simp [Ddv.ofRange], by simp [Ddv.ofRange]⟩

theorem ddv_toList {d : Ddv.DDV α} {l : List α} (h : Ddv.Shows d l) : Ddv.toList d = .ok l := by
  simp [Ddv.toList, h.1, h.2]

theorem Shows.toList {s : Store α} {l : List α} (h : s.Shows l) : s.toList = .ok l := by
  cases s with
  | vec => cases h; rfl
  | ddv d => exact ddv_toList h

theorem Shows.size {s : Store α} {l : List α} (h : s.Shows l) : s.size = .ok l.length := by
  cases s with
  | vec => cases h; rfl
  | ddv d => exact (Ddv.reads_agree (ddv_toList h)).1

theorem Shows.toListRev {s : Store α} {l : List α} (h : s.Shows l) : s.toListRev = .ok l.reverse := by
  cases s with
  | vec => cases h; rfl
  | ddv d => exact (Ddv.reads_agree (ddv_toList h)).2.2.2

theorem Shows.copied {s : Store α} {l : List α} (h : s.Shows l) : l.length ≤ s.copied := by
  cases s with
  | vec => cases h; exact Nat.le_refl _
  | ddv d => have := Ddv.Shows.len h; simp only [Store.copied]; omega

theorem Shows.at_ {s : Store α} {l : List α} (h : s.Shows l) (i : Nat) :
    s.at_ i = match l[i]? with | some x => .ok x | none => .err .outOfRange := by
  cases s with
  | vec => cases h; rfl
  | ddv d =>
    have := (Ddv.reads_agree (ddv_toList h)).2.2.1 i
    simp only [Store.at_]
    rw [this]
    by_cases hi : i < l.length
    · simp [hi]
    · simp [hi]

theorem Shows.idx {s : Store α} {l : List α} (h : s.Shows l) (i : Nat) : s.idx i = Outcome.ofOption l[i]? := by
  cases s with
  | vec => cases h; rfl
  | ddv d => exact (Ddv.reads_agree (ddv_toList h)).2.1 i

theorem Shows.setIdx {s : Store α} {l : List α} (h : s.Shows l) {i : Nat} (hi : i < l.length) (v : α) :
    ∃ s', s.setIdx i v = .ok s' ∧ s'.Shows (l.set i v) := by
  cases s with
  | vec => cases h; exact ⟨.vec (l.set i v), by simp [Store.setIdx, hi], rfl⟩
  | ddv d =>
    obtain ⟨d', e, sh⟩ := Ddv.run_shows v h (.set i v) hi
    exact ⟨.ddv d', by simp only [Store.setIdx]; rw [show Ddv.setIdx d i v = .ok d' from e]; rfl, sh⟩

theorem Shows.push {s : Store α} {l : List α} (h : s.Shows l) (v : α) : (s.push v).Shows (l ++ [v]) := by
  cases s with
  | vec => cases h; rfl
  | ddv d =>
    obtain ⟨d', e, sh⟩ := Ddv.run_shows v h (.pushBack v) trivial
    cases e
    exact sh

theorem Shows.insert {s : Store α} {l : List α} (h : s.Shows l) {i : Nat} (hi : i ≤ l.length) (vs : List α) :
    ∃ s', s.insert i vs = .ok s' ∧ s'.Shows (l.take i ++ vs ++ l.drop i) := by
  cases s with
  | vec => cases h; exact ⟨.vec (l.take i ++ vs ++ l.drop i), by simp [Store.insert, Ddv.vecInsert, hi, mapV], rfl⟩
  | ddv d =>
    have hl := Ddv.Shows.len h
    have h1 := h.1
    have hi' : d.off + i ≤ d.vec.length := by omega
    refine ⟨.ddv ⟨d.vec.take (d.off + i) ++ vs ++ d.vec.drop (d.off + i), d.off⟩,
      by simp [Store.insert, Ddv.insert, Ddv.vecInsert, Ddv.begin_, hi', mapD], ?_, ?_⟩
    · simp; omega
    · rw [Ddv.drop_take_append vs i hi', h.2]

theorem Shows.insertEnd {s : Store α} {l : List α} (h : s.Shows l) (vs : List α) :
    ∃ s', s.insertEnd vs = .ok s' ∧ s'.Shows (l ++ vs) := by
  obtain ⟨s', e, sh⟩ := h.insert (Nat.le_refl _) vs
  refine ⟨s', ?_, by simpa using sh⟩
  rw [← e]
  cases s with
  | vec => cases h; rfl
  | ddv d =>
    have hl := Ddv.Shows.len h
    have h1 := h.1
    simp only [Store.insertEnd, Store.insert, Ddv.end_, Ddv.begin_]
    congr 2
    omega

theorem Shows.erase1 {s : Store α} {l : List α} (h : s.Shows l) {i : Nat} (hi : i < l.length) :
    ∃ s', s.erase1 i = .ok s' ∧ s'.Shows (l.eraseIdx i) := by
  cases s with
  | vec =>
    cases h
    exact ⟨.vec (l.take i ++ l.drop (i + 1)), by simp [Store.erase1, Ddv.vecErase, hi, mapV, Nat.succ_le_of_lt hi],
      by simp [Shows, List.eraseIdx_eq_take_drop_succ]⟩
  | ddv d =>
    obtain ⟨d', e, sh⟩ := Ddv.run_shows l[i] h (.erase1 i) hi
    simp only [Ddv.Op.run] at e
    simp only [Store.erase1]
    cases hr : Ddv.erase1 d (Ddv.begin_ d + i) with
    | ok r => rw [hr] at e; cases e; exact ⟨_, rfl, sh⟩
    | err => rw [hr] at e; cases e
    | ub => rw [hr] at e; cases e

theorem Shows.erase2 {s : Store α} {l : List α} (h : s.Shows l) {i j : Nat} (hij : i ≤ j) (hj : j ≤ l.length) :
    ∃ s', s.erase2 i j = .ok s' ∧ s'.Shows (l.take i ++ l.drop j) := by
  cases s with
  | vec => cases h; exact ⟨.vec (l.take i ++ l.drop j), by simp [Store.erase2, Ddv.vecErase, hij, hj, mapV], rfl⟩
  | ddv d =>
    have hl := Ddv.Shows.len h
    have hj2 : d.off + j ≤ d.vec.length := by have := h.1; omega
    refine ⟨.ddv ⟨d.vec.take (d.off + i) ++ d.vec.drop (d.off + j), d.off⟩, by
      simp [Store.erase2, Ddv.erase2, Ddv.begin_, Ddv.vecErase, hij, hj2], ?_, ?_⟩
    · simp; omega
    · have := Ddv.drop_take_append (l := d.vec) (o := d.off) (i := i) [] j (by omega)
      simp only [List.append_nil] at this
      rw [this, h.2]

theorem Shows.resize {s : Store α} {l : List α} (dflt : α) (h : s.Shows l) (n : Nat) :
    ∃ s', s.resize dflt n = .ok s' ∧ s'.Shows (l.take n ++ List.replicate (n - l.length) dflt) := by
  cases s with
  | vec => cases h; exact ⟨_, rfl, rfl⟩
  | ddv d =>
    obtain ⟨d', e, sh⟩ := Ddv.run_shows dflt h (.resize n) trivial
    exact ⟨.ddv d', by simp only [Store.resize]; rw [show Ddv.resize _ _ _ = .ok d' from e]; rfl, sh⟩

theorem ddv_clear {d : Ddv.DDV α} {l : List α} (h : Ddv.Shows d l) :
    ∃ d', Ddv.clearRemoved d = .ok d' ∧ Ddv.Shows d' l :=
  ⟨_, Ddv.clearRemoved_shows h, by simp, by simp⟩

theorem Shows.reserve {s : Store α} {l : List α} (h : s.Shows l) (n : Nat) :
    ∃ s', s.reserve n = .ok s' ∧ s'.Shows l := by
  cases s with
  | vec => exact ⟨_, rfl, h⟩
  | ddv d =>
    obtain ⟨d', e, sh⟩ := ddv_clear h
    exact ⟨.ddv d', by simp only [Store.reserve, Ddv.reserve]; rw [e]; rfl, sh⟩

theorem Shows.shrink {s : Store α} {l : List α} (h : s.Shows l) : ∃ s', s.shrink = .ok s' ∧ s'.Shows l := by
  cases s with
  | vec => exact ⟨_, rfl, h⟩
  | ddv d =>
    obtain ⟨d', e, sh⟩ := ddv_clear h
    exact ⟨.ddv d', by simp only [Store.shrink, Ddv.shrinkToFit]; rw [e]; rfl, sh⟩

theorem Shows.assign {s : Store α} {l : List α} (h : s.Shows l) (vs : List α) :
    ∃ s', s.assign vs = .ok s' ∧ s'.Shows vs := by
  cases s with
  | vec => exact ⟨_, rfl, rfl⟩
  | ddv d =>
    refine ⟨.ddv ⟨vs, 0⟩, ?_, by simp [Shows, Ddv.Shows]⟩
    simp only [Store.assign, Ddv.assign, Ddv.clearRemoved_shows h, Outcome.bind_ok, mapD]

theorem Shows.range {s : Store α} {l : List α} (h : s.Shows l) {p n : Nat} (hp : p + n ≤ l.length) :
    s.range p n = .ok (cut l p n) := by
  simp only [Store.range, h.toList, if_pos hp, cut]

end Store

/-! ### the relation -/

/-- Block of the model and block of the specification. -/
def BlkRel (x : Blk V) (y : SBlk V) : Prop := x.cls = y.cls ∧ x.store.Shows y.cells

structure Rep (w : World V) (s : Spec V) : Prop where
  blks : ∀ b, Option.Rel BlkRel (w.blks b) (s.blks b)
  objs : w.objs = s.objs
  nextB : w.nextB = s.nextB
  nextO : w.nextO = s.nextO

/-- Invariant of the specification. -/
structure Ok (cfg : Cfg V) (s : Spec V) : Prop where
  fits : ∀ b y, s.blks b = some y → ∃ k, cfg.classes[y.cls]? = some k ∧ y.cells.all k.kind.fits
  fresh : ∀ o, (s.objs o).isSome → o < s.nextO

theorem Rep.get {w : World V} {s : Spec V} (h : Rep w s) {b : Nat} {y : SBlk V} (hb : s.blks b = some y) :
    ∃ x, w.blks b = some x ∧ BlkRel x y := by
  have := h.blks b
  rw [hb] at this
  cases hw : w.blks b with
  | none => rw [hw] at this; cases this
  | some x => rw [hw] at this; cases this with | some r => exact ⟨x, rfl, r⟩

theorem cells_eq {s : Spec V} {b : Nat} {y : SBlk V} (hb : s.blks b = some y) : s.cells b = y.cells := by
  simp [Spec.cells, hb]

theorem find_eq {cfg : Cfg V} (hd : cfg.Distinct) {c : Nat} {k : Class V} (hk : cfg.classes[c]? = some k) :
    cfg.find k.id = some c := by
  have hc := List.getElem?_eq_some_iff.1 hk
  obtain ⟨hlt, he⟩ := hc
  simp only [Cfg.find]
  rw [List.findIdx?_eq_some_iff_getElem]
  refine ⟨hlt, by simp [he], ?_⟩
  intro j hj
  simp only [beq_iff_eq]
  intro hjk
  have := List.pairwise_iff_getElem.1 hd j c (by simp; omega) (by simpa using hlt) hj
  apply this
  simp [hjk, he]

theorem cast_eq {cfg : Cfg V} {w : World V} {c b : Nat} {x : Blk V} {k : Class V} (hb : w.blks b = some x)
    (hc : x.cls = c) (hk : cfg.classes[c]? = some k) (f : Class V → Blk V → Result V) :
    cast cfg w c b f = f k x := by
  simp only [cast, hb, hk, if_pos hc]

theorem dispatch_eq {cfg : Cfg V} (hd : cfg.Distinct) {w : World V} {b : Nat} {x : Blk V} {k : Class V}
    (hb : w.blks b = some x) (hk : cfg.classes[x.cls]? = some k) (f : Class V → Blk V → Result V) :
    dispatch cfg w b f = f k x := by
  simp only [dispatch, hb, Cfg.idOf, hk, Option.map_some, find_eq hd hk]
  exact cast_eq hb rfl hk f

/-- Changing one block in both. -/
theorem Rep.set {w : World V} {s : Spec V} (h : Rep w s) {b : Nat} {y : SBlk V} (hb : s.blks b = some y)
    {x : Blk V} {l : List (Cell V)} (hx : BlkRel x ⟨y.cls, l⟩) : Rep (w.setBlk b x) (s.set b l) := by
  refine ⟨fun i => ?_, h.objs, h.nextB, h.nextO⟩
  simp only [World.setBlk, Spec.set]
  by_cases hi : i = b
  · rw [if_pos hi, if_pos hi, hb]; exact .some hx
  · rw [if_neg hi, if_neg hi]; exact h.blks i

/-- Adding a block in both. -/
theorem Rep.add {w : World V} {s : Spec V} (h : Rep w s) {x : Blk V} {c : Nat} {l : List (Cell V)}
    (hx : BlkRel x ⟨c, l⟩) : Rep (w.addBlk x) (s.add c l) := by
  refine ⟨fun i => ?_, h.objs, ?_, h.nextO⟩
  · simp only [World.addBlk, World.setBlk, Spec.add, h.nextB]
    by_cases hi : i = s.nextB
    · rw [if_pos hi, if_pos hi]; exact .some hx
    · rw [if_neg hi, if_neg hi]; exact h.blks i
  · simp [World.addBlk, Spec.add, h.nextB]

theorem Ok.set {cfg : Cfg V} {s : Spec V} (h : Ok cfg s) {b : Nat} {y : SBlk V} (hb : s.blks b = some y)
    {k : Class V} (hk : cfg.classes[y.cls]? = some k) {l : List (Cell V)} (hl : l.all k.kind.fits) :
    Ok cfg (s.set b l) := by
  refine ⟨fun i z hz => ?_, h.fresh⟩
  simp only [Spec.set] at hz
  by_cases hi : i = b
  · rw [if_pos hi, hb] at hz; cases hz; exact ⟨k, hk, hl⟩
  · rw [if_neg hi] at hz; exact h.fits i z hz

theorem Ok.add {cfg : Cfg V} {s : Spec V} (h : Ok cfg s) {c : Nat} {k : Class V} (hk : cfg.classes[c]? = some k)
    {l : List (Cell V)} (hl : l.all k.kind.fits) : Ok cfg (s.add c l) := by
  refine ⟨fun i z hz => ?_, h.fresh⟩
  simp only [Spec.add] at hz
  by_cases hi : i = s.nextB
  · rw [if_pos hi] at hz; cases hz; exact ⟨k, hk, hl⟩
  · rw [if_neg hi] at hz; exact h.fits i z hz

/-- A call that replaces the store of one block. -/
theorem store_step {cfg : Cfg V} {w : World V} {s : Spec V} (h : Rep w s) (ho : Ok cfg s) {b : Nat} {y : SBlk V}
    (hb : s.blks b = some y) {k : Class V} (hk : cfg.classes[y.cls]? = some k) {x : Blk V} (hx : x.cls = y.cls)
    {r : Outcome (Store (Cell V))} {l : List (Cell V)} (hr : ∃ st, r = .ok st ∧ st.Shows l)
    (hl : l.all k.kind.fits) :
    ∃ w', w.store b x r = .ok (w', .unit) ∧ Rep w' (s.set b l) ∧ Ok cfg (s.set b l) := by
  obtain ⟨st, rfl, sh⟩ := hr
  exact ⟨_, rfl, h.set hb ⟨hx, sh⟩, ho.set hb hk hl⟩

/-! ### objects -/

theorem pointsTo_iff {l : List (Cell V)} {o : Nat} : pointsTo l o = true ↔ Cell.ptr (some o) ∈ l := by
  simp only [pointsTo, List.any_eq_true]
  constructor
  · rintro ⟨c, hc, h⟩
    split at h
    · rename_i a; simp at h; subst h; exact hc
    · cases h
  · intro h; exact ⟨_, h, by simp⟩

/-- The objects after deleting the cells. -/
def without (objs : Nat → Option V) (l : List (Cell V)) : Nat → Option V :=
  fun o => if pointsTo l o then none else objs o

theorem without_nil (objs : Nat → Option V) : without objs [] = objs := by funext o; simp [without, pointsTo]

theorem without_null (objs : Nat → Option V) (l : List (Cell V)) : without objs (.ptr none :: l) = without objs l := by
  funext o; simp [without, pointsTo]

theorem without_cons (objs : Nat → Option V) (a : Nat) (l : List (Cell V)) :
    without (fun i => if i = a then none else objs i) l = without objs (.ptr (some a) :: l) := by
  funext o
  simp only [without, pointsTo, List.any_cons]
  by_cases h : a = o
  · subst h; simp
  · have : ¬ (o = a) := fun e => h e.symm
    simp [h, this]

theorem delCells_eq {w : World V} {l : List (Cell V)}
    (h : (∀ c ∈ l, c = .ptr none ∨ ∃ o, c = .ptr (some o) ∧ (w.objs o).isSome))
    (hn : (l.filter fun c => match c with | .ptr (some _) => true | _ => false).Nodup) :
    delCells w l = .ok { w with objs := without w.objs l } := by
  induction l generalizing w with
  | nil => simp [delCells, without_nil]
  | cons c l ih =>
    rcases h c List.mem_cons_self with rfl | ⟨o, rfl, hs⟩
    · simp only [delCells]
      rw [ih (fun c hc => h c (List.mem_cons_of_mem _ hc)) (by simpa using hn), without_null]
    · simp only [List.filter_cons, if_true, List.nodup_cons] at hn
      simp only [delCells, if_pos hs]
      rw [ih _ hn.2]
      · simp only [without_cons]
      · intro c hc
        rcases h c (List.mem_cons_of_mem _ hc) with e | ⟨p, e, hp⟩
        · exact .inl e
        · refine .inr ⟨p, e, ?_⟩
          have hne : p ≠ o := by
            rintro rfl
            exact hn.1 (List.mem_filter.2 ⟨e ▸ hc, by simp⟩)
          simpa [hne] using hp

/-- The same objects with those of `vs` added. -/
def World.withObjs (w : World V) (vs : List V) : World V :=
  { w with objs := allocObjs w.objs w.nextO vs, nextO := w.nextO + vs.length }

theorem withObjs_nil (w : World V) : w.withObjs [] = w := by
  have : allocObjs w.objs w.nextO [] = w.objs := by
    funext o; simp only [allocObjs, List.length_nil, Nat.add_zero]; rw [if_neg (by omega)]
  simp [World.withObjs, this]

theorem withObjs_cons (w : World V) (v : V) (vs : List V) : (w.addObj v).withObjs vs = w.withObjs (v :: vs) := by
  have : allocObjs (w.addObj v).objs (w.nextO + 1) vs = allocObjs w.objs w.nextO (v :: vs) := by
    funext o
    simp only [allocObjs, World.addObj, List.length_cons]
    by_cases h : o = w.nextO
    · subst h
      rw [if_neg (by omega), if_pos (⟨Nat.le_refl _, by omega⟩ : _ ∧ _)]
      simp
    · by_cases h2 : w.nextO + 1 ≤ o ∧ o < w.nextO + 1 + vs.length
      · rw [if_pos h2, if_pos ⟨by omega, by omega⟩, show o - w.nextO = o - (w.nextO + 1) + 1 by omega,
          List.getElem?_cons_succ]
      · rw [if_neg h2, if_neg h, if_neg (by omega)]
  simp only [World.withObjs, List.length_cons]
  rw [show (w.addObj v).nextO = w.nextO + 1 from rfl, this]
  simp only [World.addObj, Nat.add_comm vs.length, Nat.add_assoc]

theorem ptrs_cons (n k : Nat) : (ptrs n (k + 1) : List (Cell V)) = .ptr (some n) :: ptrs (n + 1) k := by
  simp only [ptrs, List.range_succ_eq_map, List.map_cons, List.map_map, Nat.add_zero]
  congr 1
  apply List.map_congr_left
  intro i _
  simp only [Function.comp, Nat.succ_eq_add_one]
  congr 2
  omega

/-- Live cells of a world whose objects lie below `nextO`. -/
structure LiveW (w : World V) (l : List (Cell V)) : Prop where
  live : ∀ c ∈ l, ∃ o, c = .ptr (some o) ∧ (w.objs o).isSome
  fresh : ∀ o, (w.objs o).isSome → o < w.nextO

theorem filterMap_congr_mem {f g : α → Option β} {l : List α} (h : ∀ x ∈ l, f x = g x) :
    l.filterMap f = l.filterMap g := by
  induction l with
  | nil => rfl
  | cons x l ih =>
    rw [List.filterMap_cons, List.filterMap_cons, h x List.mem_cons_self, ih fun y hy => h y (List.mem_cons_of_mem _ hy)]

theorem LiveW.cons {w : World V} {c : Cell V} {l : List (Cell V)} (h : LiveW w (c :: l)) :
    ∃ o v, c = .ptr (some o) ∧ w.objs o = some v ∧ valsOf w.objs (c :: l) = v :: valsOf w.objs l ∧
      ∀ v', LiveW (w.addObj v') l ∧ valsOf (w.addObj v').objs l = valsOf w.objs l := by
  obtain ⟨o, rfl, hs⟩ := h.live c List.mem_cons_self
  obtain ⟨v, hv⟩ := Option.isSome_iff_exists.1 hs
  refine ⟨o, v, rfl, hv, by simp [valsOf, hv], fun v' => ⟨⟨?_, ?_⟩, ?_⟩⟩
  · intro c hc
    obtain ⟨p, e, hp⟩ := h.live c (List.mem_cons_of_mem _ hc)
    refine ⟨p, e, ?_⟩
    have := h.fresh p hp
    simp only [World.addObj]
    rw [if_neg (by omega)]
    exact hp
  · intro p hp
    simp only [World.addObj] at hp ⊢
    by_cases e : p = w.nextO
    · omega
    · rw [if_neg e] at hp; have := h.fresh p hp; omega
  · unfold valsOf
    refine filterMap_congr_mem ?_
    intro c hc
    obtain ⟨p, rfl, hp⟩ := h.live c (List.mem_cons_of_mem _ hc)
    have := h.fresh p hp
    simp only [World.addObj]
    rw [if_neg (by omega)]

theorem valsOf_length {w : World V} {l : List (Cell V)} (h : LiveW w l) : (valsOf w.objs l).length = l.length := by
  induction l with
  | nil => rfl
  | cons c l ih =>
    obtain ⟨o, v, rfl, _, e, _⟩ := h.cons
    rw [e, List.length_cons, List.length_cons, ih ⟨fun c hc => h.live c (List.mem_cons_of_mem _ hc), h.fresh⟩]

/-- How many copies are made when copy `fail` throws. -/
def copiesMade (fail : Option Nat) (n : Nat) : Nat := match fail with | some k => min k n | none => n

theorem copyLoop_eq {fail : Option Nat} {w : World V} {l : List (Cell V)} (h : LiveW w l) :
    copyLoop fail w l = .ok (w.withObjs ((valsOf w.objs l).take (copiesMade fail l.length)),
      ptrs w.nextO (copiesMade fail l.length), decide (copiesMade fail l.length < l.length)) := by
  induction l generalizing w fail with
  | nil =>
    have : copiesMade fail 0 = 0 := by cases fail <;> simp [copiesMade]
    simp [copyLoop, this, withObjs_nil, ptrs]
  | cons c l ih =>
    obtain ⟨o, v, rfl, hv, e, hn⟩ := h.cons
    simp only [copyLoop, hv]
    by_cases hf : fail = some 0
    · subst hf
      simp [copiesMade, withObjs_nil, ptrs]
    · rw [if_neg hf, ih (hn v).1, (hn v).2]
      have hm : copiesMade fail (l.length + 1) = copiesMade (fail.map (· - 1)) l.length + 1 := by
        cases fail with
        | none => rfl
        | some k =>
          cases k with
          | zero => exact absurd rfl hf
          | succ k => simp [copiesMade]
      rw [List.length_cons, hm, e, List.take_succ_cons, ptrs_cons, withObjs_cons]
      simp [World.addObj]

/-- `clones` with the values that came before. -/
def clonesL (f : List V → V → Option V) : List V → List V → List (Option V)
  | _, [] => []
  | before, v :: vs => f before v :: clonesL f (before ++ [v]) vs

theorem clonesL_eq (f : List V → V → Option V) (before vs : List V) :
    clonesL f before vs = (List.range vs.length).map fun i => vs[i]?.bind (f (before ++ vs.take i)) := by
  induction vs generalizing before with
  | nil => rfl
  | cons v vs ih =>
    simp only [clonesL, List.length_cons, List.range_succ_eq_map, List.map_cons, List.map_map]
    rw [ih]
    simp only [List.getElem?_cons_zero, Option.bind_some, List.take_zero, List.append_nil]
    congr 1
    apply List.map_congr_left
    intro i _
    simp

theorem clones_eq (f : List V → V → Option V) (vs : List V) : clones f vs = clonesL f [] vs := by
  rw [clonesL_eq]; simp [clones]

theorem cloneLoop_eq {f : List V → V → Option V} {before : List V} {w : World V} {l : List (Cell V)} (h : LiveW w l) :
    cloneLoop f before w l =
      .ok (w.withObjs (((clonesL f before (valsOf w.objs l)).takeWhile Option.isSome).filterMap id),
        ptrs w.nextO ((clonesL f before (valsOf w.objs l)).takeWhile Option.isSome).length,
        !(clonesL f before (valsOf w.objs l)).all Option.isSome) := by
  induction l generalizing w before with
  | nil => simp [cloneLoop, valsOf, clonesL, withObjs_nil, ptrs]
  | cons c l ih =>
    obtain ⟨o, v, rfl, hv, e, hn⟩ := h.cons
    rw [e]
    simp only [cloneLoop, hv, clonesL]
    cases hf : f before v with
    | none => simp [withObjs_nil, ptrs]
    | some v' =>
      simp only [ih (hn v').1, (hn v').2]
      simp only [List.takeWhile_cons, Option.isSome_some, if_true, List.filterMap_cons, id, List.length_cons, ptrs_cons,
        withObjs_cons, List.all_cons, Bool.true_and]
      simp [World.addObj]

theorem filterMap_isSome_length (l : List (Option V)) (h : ∀ x ∈ l, x.isSome) : (l.filterMap id).length = l.length := by
  induction l with
  | nil => rfl
  | cons x l ih =>
    cases x with
    | none => simpa using h none List.mem_cons_self
    | some v =>
      have := ih fun x hx => h x (List.mem_cons_of_mem _ hx)
      show (List.filterMap id l).length + 1 = l.length + 1
      rw [this]

theorem takeWhile_all (l : List (Option V)) (h : l.all Option.isSome = true) : l.takeWhile Option.isSome = l := by
  induction l with
  | nil => rfl
  | cons x l ih =>
    simp only [List.all_cons, Bool.and_eq_true] at h
    simp [h.1, ih h.2]

theorem takeWhile_isSome (l : List (Option V)) : ∀ x ∈ l.takeWhile Option.isSome, x.isSome := by
  intro x hx
  have := List.all_takeWhile (p := Option.isSome) (l := l)
  exact List.all_eq_true.1 this x hx

/-- Deleting the clones made so far leaves the objects that were there before. -/
theorem del_new {w : World V} (hf : ∀ o, (w.objs o).isSome → o < w.nextO) (vs : List V) :
    delCells (w.withObjs vs) (ptrs w.nextO vs.length) = .ok { w with nextO := w.nextO + vs.length } := by
  rw [delCells_eq]
  · congr 1
    have : without (w.withObjs vs).objs (ptrs w.nextO vs.length) = w.objs := by
      funext o
      have hp : pointsTo (ptrs w.nextO vs.length : List (Cell V)) o = true ↔
          w.nextO ≤ o ∧ o < w.nextO + vs.length := by
        rw [pointsTo_iff]
        simp only [ptrs, List.mem_map, List.mem_range]
        constructor
        · rintro ⟨i, hi, e⟩
          simp at e
          omega
        · rintro ⟨h1, h2⟩
          exact ⟨o - w.nextO, by omega, by congr 2; omega⟩
      simp only [without, World.withObjs, allocObjs]
      by_cases h : w.nextO ≤ o ∧ o < w.nextO + vs.length
      · rw [if_pos (hp.2 h)]
        cases ho : w.objs o with
        | none => rfl
        | some v => have := hf o (by simp [ho]); omega
      · rw [if_neg (fun e => h (hp.1 e)), if_neg h]
    rw [this]
    rfl
  · intro c hc
    simp only [ptrs, List.mem_map, List.mem_range] at hc
    obtain ⟨i, hi, rfl⟩ := hc
    refine .inr ⟨_, rfl, ?_⟩
    simp only [World.withObjs, allocObjs]
    rw [if_pos ⟨by omega, by omega⟩]
    simp [hi]
  · apply List.Nodup.filter
    unfold ptrs
    apply List.Nodup.map _ List.nodup_range
    intro a b e
    simpa using e

theorem equalObjs_eq [DecidableEq V] {w : World V} {l r : List (Cell V)} (hl : LiveW w l) (hr : LiveW w r)
    (he : l.length = r.length) : equalObjs w l r = .ok (decide (valsOf w.objs l = valsOf w.objs r)) := by
  induction l generalizing r with
  | nil =>
    cases r with
    | nil => simp [equalObjs, valsOf]
    | cons => simp at he
  | cons c l ih =>
    cases r with
    | nil => simp at he
    | cons d r =>
      obtain ⟨o, v, rfl, hv, e1, _⟩ := hl.cons
      obtain ⟨p, u, rfl, hu, e2, _⟩ := hr.cons
      rw [e1, e2]
      simp only [equalObjs, hv, hu]
      by_cases h : v = u
      · rw [if_pos h, ih ⟨fun c hc => hl.live c (List.mem_cons_of_mem _ hc), hl.fresh⟩
          ⟨fun c hc => hr.live c (List.mem_cons_of_mem _ hc), hr.fresh⟩ (by simpa using he)]
        simp [h]
      · rw [if_neg h]; simp [h]

/-! ### lists -/

theorem over_nil (l : List α) (p : Nat) : over l p [] = l := by simp [over]

theorem over_get {l r : List α} {p : Nat} (h : p + r.length ≤ l.length) (j : Nat) :
    (over l p r)[j]? = if j < p then l[j]? else if j < p + r.length then r[j - p]? else l[j]? := by
  have hl : (l.take p).length = p := by simp; omega
  simp only [over, List.getElem?_append, List.length_append, hl]
  by_cases h1 : j < p
  · rw [if_pos (by omega), if_pos h1, if_pos h1, List.getElem?_take_of_lt h1]
  · by_cases h2 : j < p + r.length
    · rw [if_pos h2, if_neg h1, if_neg h1, if_pos h2]
    · rw [if_neg h2, if_neg h1, if_neg h2, List.getElem?_drop]
      congr 1; omega

theorem cut_get (l : List α) (p n j : Nat) : (cut l p n)[j]? = if j < n then l[p + j]? else none := by
  simp only [cut, List.getElem?_take, List.getElem?_drop]

theorem cut_length {l : List α} {p n : Nat} (h : p + n ≤ l.length) : (cut l p n).length = n := by
  simp [cut]; omega

theorem over_length {l r : List α} {p : Nat} (h : p + r.length ≤ l.length) : (over l p r).length = l.length := by
  simp [over]; omega

theorem over_set {l r : List α} {p : Nat} (c : α) (h : p + 1 + r.length ≤ l.length) :
    over (l.set p c) (p + 1) r = over l p (c :: r) := by
  apply List.ext_getElem?
  intro j
  rw [over_get (by simpa using h), over_get (by simp; omega), List.getElem?_set]
  simp only [List.length_cons]
  by_cases h1 : j < p
  · rw [if_pos (by omega), if_pos h1, if_neg (by omega)]
  · rw [if_neg h1]
    by_cases h2 : j = p
    · subst h2
      rw [if_pos (by omega), if_pos rfl, if_pos (by omega), if_pos (by omega)]
      simp
    · rw [if_neg (by omega : ¬ j < p + 1)]
      by_cases h3 : j < p + 1 + r.length
      · rw [if_pos h3, if_pos (by omega), show j - p = j - (p + 1) + 1 by omega, List.getElem?_cons_succ]
      · rw [if_neg h3, if_neg (by omega), if_neg (by omega)]

theorem cut_cons {l : List α} {p n : Nat} {v : α} (h : l[p]? = some v) : cut l p (n + 1) = v :: cut l (p + 1) n := by
  apply List.ext_getElem?
  intro j
  rw [cut_get]
  cases j with
  | zero => simp [h]
  | succ j => simp only [List.getElem?_cons_succ, cut_get, Nat.add_lt_add_iff_right]; congr 2; omega

theorem setLoop_shows {s : Store (Cell V)} {l xs : List (Cell V)} {p : Nat} (h : s.Shows l)
    (hp : p + xs.length ≤ l.length) : ∃ s', setLoop s p xs = .ok s' ∧ s'.Shows (over l p xs) := by
  induction xs generalizing s l p with
  | nil => exact ⟨s, rfl, by rwa [over_nil]⟩
  | cons c r ih =>
    simp only [List.length_cons] at hp
    obtain ⟨s1, e1, h1⟩ := h.setIdx (i := p) (by omega) c
    obtain ⟨s2, e2, h2⟩ := ih (p := p + 1) h1 (by simp; omega)
    exact ⟨s2, by simp only [setLoop, e1, e2], by rwa [over_set c (by omega)] at h2⟩

end Mdds.Elem
