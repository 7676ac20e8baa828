import Verif.Coll.Spec
import Verif.Mtv.Props
import Mathlib.Tactic.Ring
import Mathlib.Tactic.Linarith
/-!
# Collections: lemmas
-/

namespace Mdds.Coll

open Mdds.Mtv

variable {α : Type} [DecidableEq α]

/-! ### Reading -/

theorem getAt_ok {s : St α} (h : Reachable s) {p : Nat × Nat} {pos : Nat} (hp : Designates s p pos)
    (hlt : pos < (contents s).length) :
    ∃ b, s.blocks[p.1]? = some b ∧
      ((b.ty = none ∧ (contents s)[pos]? = some none) ∨
        ∃ ty x, b.ty = some ty ∧ (contents s)[pos]? = some (some (ty, x)) ∧ getAt p ty s = .ok (x, s)) := by
  have hw := reachable_wf h
  rcases hp with ⟨b, hb, h1, h2⟩ | ⟨-, h2⟩
  · refine ⟨b, hb, ?_⟩
    have hi : p.1 < s.blocks.length := (List.getElem?_eq_some_iff.1 hb).1
    have hbe : s.blocks[p.1] = b := (List.getElem?_eq_some_iff.1 hb).2
    have e : s.blocks = s.blocks.take p.1 ++ b :: s.blocks.drop (p.1 + 1) := by rw [← hbe]; simp
    have hpos := ((tile_iff s.blocks 0).1 hw.tile _ _ hb).1
    have e2 : pos = total (s.blocks.take p.1) + p.2 := by omega
    rw [contents_eq, e2]
    rcases cell_at hw e h1 with ⟨hd, hc⟩ | ⟨d, v, hd, hv, hc⟩
    · exact Or.inl ⟨by simp [Blk.ty, hd], hc⟩
    · refine Or.inr ⟨d.ty, v, by simp [Blk.ty, hd], hc, ?_⟩
      simp only [getAt, bind_apply, getB_ap, hb, obind_ok, hd, getValue_ok d p.2 v hv]
  · have := len_cur h; omega

theorem visit_ok {mem : Mem α} {items : List Item} {k : Nat} {x : Item} (hx : items[k]? = some x)
    (hr : Reachable (mem x.vec)) {pos : Nat} (hp : pos < (contents (mem x.vec)).length) (index : Nat) :
    ∃ items' n, visit mem items k index pos = .ok (items', n) ∧ items'.map Item.vec = items.map Item.vec ∧
      n.index = index ∧ readNode mem n = .ok (index, pos, cellOf mem x.vec pos) := by
  have hc := len_cur hr
  obtain ⟨p, h1, h2⟩ := position_in (reachable_wf hr) (some (some x.blockPos)) (pos := pos) (by omega)
  obtain ⟨b, hb, h3⟩ := getAt_ok hr h2 hp
  refine ⟨items.set k { x with blockPos := p.1 }, ⟨some b.ty, index, some pos, some (x.vec, p)⟩, ?_, ?_, rfl, ?_⟩
  · simp only [visit, hx, h1, hb]
  · apply List.ext_getElem?
    intro i
    rw [List.map_set]
    by_cases hi : i = k
    · subst hi
      rw [List.getElem?_set_self (by simpa using (List.getElem?_eq_some_iff.1 hx).1)]
      simp [hx]
    · rw [List.getElem?_set_ne (Ne.symm hi)]
  · rcases h3 with ⟨ht, hcell⟩ | ⟨ty, y, ht, hcell, hg⟩
    · simp only [readNode, ht, cellOf, hcell, Option.getD_some]
    · simp only [readNode, ht, hg, cellOf, hcell, Option.getD_some]

/-! ### The loop -/

/-- What remains to be visited from container `k` of position `p` on. -/
def rest {β : Type} (g : Nat → Nat → β) (n pe p k : Nat) : List β :=
  (List.range' k (n - k)).map (fun j => g j p) ++
    (List.range' (p + 1) (pe - (p + 1))).flatMap fun q => (List.range' 0 n).map fun j => g j q

theorem rest_in {β : Type} (g : Nat → Nat → β) {n pe p k : Nat} (h : k + 1 < n) :
    rest g n pe p k = g k p :: rest g n pe p (k + 1) := by
  obtain ⟨m, rfl⟩ : ∃ m, n = k + 1 + m := ⟨n - (k + 1), by omega⟩
  simp only [rest, show k + 1 + m - k = m + 1 by omega, show k + 1 + m - (k + 1) = m by omega, List.range'_succ, List.map_cons,
    List.cons_append]

theorem rest_last {β : Type} (g : Nat → Nat → β) {n pe p k : Nat} (h : k + 1 = n) (hp : pe ≤ p + 1) :
    rest g n pe p k = [g k p] := by
  subst h
  simp [rest, show k + 1 - k = 1 by omega, show pe - (p + 1) = 0 by omega]

theorem rest_row {β : Type} (g : Nat → Nat → β) {n pe p k : Nat} (h : k + 1 = n) (hp : p + 1 < pe) :
    rest g n pe p k = g k p :: rest g n pe (p + 1) 0 := by
  subst h
  obtain ⟨m, rfl⟩ : ∃ m, pe = p + 1 + (m + 1) := ⟨pe - (p + 2), by omega⟩
  simp only [rest, show k + 1 - k = 1 by omega, show p + 1 + (m + 1) - (p + 1) = m + 1 by omega,
    show p + 1 + (m + 1) - (p + 1 + 1) = m by omega, List.range'_succ, List.flatMap_cons, Nat.sub_zero]
  simp

theorem rest_all {β : Type} (g : Nat → Nat → β) {n pe p : Nat} (hp : p < pe) :
    rest g n pe p 0 = (List.range' p (pe - p)).flatMap fun q => (List.range' 0 n).map fun j => g j q := by
  obtain ⟨m, rfl⟩ : ∃ m, pe = p + (m + 1) := ⟨pe - (p + 1), by omega⟩
  simp only [rest, show p + (m + 1) - (p + 1) = m by omega, show p + (m + 1) - p = m + 1 by omega, List.range'_succ,
    List.flatMap_cons, Nat.sub_zero]

/-- The state of an iterator that stands on container `k` (counted from the offset) of position `p`. -/
structure On (mem : Mem α) (vs : List Nat) (stop it : It) (k : Nat) : Prop where
  vecs : it.items.map Item.vec = vs
  ident : it.identity = stop.identity
  endEq : it.elemEnd = stop.elemEnd
  offset : it.offset = stop.node.index
  index : it.node.index = it.offset + k
  lt : k < vs.length
  pos : it.elemPos < it.elemEnd
  read : ∀ v, vs[k]? = some v → readNode mem it.node = .ok (it.offset + k, it.elemPos, cellOf mem v it.elemPos)

theorem loop_ok {mem : Mem α} {vs : List Nat} {stop : It} (hs : stop.elemPos = stop.elemEnd)
    (hr : ∀ v ∈ vs, Reachable (mem v)) (hl : ∀ v ∈ vs, stop.elemEnd ≤ (contents (mem v)).length) (fuel : Nat) :
    ∀ (it : It) (k : Nat), On mem vs stop it k → (it.elemEnd - it.elemPos) * vs.length ≤ fuel + k → 
      loop mem stop (fuel + 1) it = some (.ok (rest (fun j q => (it.offset + j, q, cellOf mem (vs[j]?.getD 0) q))
        vs.length it.elemEnd it.elemPos k)) := by
  induction fuel with
  | zero =>
    intro it k h hf
    exfalso
    have h1 := h.pos
    have h2 := h.lt
    have : 1 * vs.length ≤ (it.elemEnd - it.elemPos) * vs.length := Nat.mul_le_mul_right _ (by omega)
    omega
  | succ fuel ih =>
    intro it k h hf
    obtain ⟨hvec, hid, hend, hoff, hidx, hlt, hpos, hread⟩ := h
    have hlen : it.items.length = vs.length := by rw [← hvec, List.length_map]
    have hne : it.eq stop = false := by
      simp only [It.eq, hs, Bool.and_eq_false_imp]
      intro h1
      have : it.elemPos ≠ stop.elemEnd := by omega
      simp [this] at h1
    obtain ⟨v, hv⟩ : ∃ v, vs[k]? = some v := ⟨vs[k], List.getElem?_eq_getElem hlt⟩
    have hitem : ∀ j, j < vs.length → ∃ x : Item, it.items[j]? = some x ∧ vs[j]? = some x.vec := by
      intro j hj
      have : j < it.items.length := by omega
      refine ⟨it.items[j], List.getElem?_eq_getElem this, ?_⟩
      rw [← hvec, List.getElem?_map, List.getElem?_eq_getElem this]; rfl
    have hmem : ∀ j v, vs[j]? = some v → v ∈ vs := fun j v hj => List.mem_of_getElem? hj
    rw [loop, hne, hread v hv]
    simp only [Bool.false_eq_true, if_false]
    by_cases hk : k + 1 < vs.length
    · obtain ⟨x, hx, hxv⟩ := hitem (k + 1) hk
      obtain ⟨items', n, h1, h2, h3, h4⟩ := visit_ok hx (hr _ (hmem _ _ hxv)) (pos := it.elemPos)
        (by have := hl _ (hmem _ _ hxv); omega) (it.offset + k + 1)
      have hn : next mem it = .ok { it with items := items', node := n } := by
        have e : it.offset + k + 1 - it.offset = k + 1 := by omega
        simp only [next, hidx, e, hlen]
        rw [if_neg (by omega), h1]; rfl
      rw [hn]
      have := ih { it with items := items', node := n } (k + 1)
        ⟨by simpa [hvec] using h2, hid, hend, hoff, by simp only [h3]; omega, hk, hpos, by
          intro w hw
          rw [hxv] at hw; cases hw
          simpa [Nat.add_assoc] using h4⟩ (by simp only; omega)
      simp only at this
      simp only [this, Option.map_some, Outcome.map]
      rw [rest_in _ hk]
      simp only [hv, Option.getD_some]
    · have hk' : k + 1 = vs.length := by omega
      by_cases hp : it.elemPos + 1 < it.elemEnd
      · obtain ⟨x, hx, hxv⟩ := hitem 0 (by omega)
        obtain ⟨items', n, h1, h2, h3, h4⟩ := visit_ok hx (hr _ (hmem _ _ hxv)) (pos := it.elemPos + 1)
          (by have := hl _ (hmem _ _ hxv); omega) it.offset
        have hn : next mem it = .ok { it with items := items', node := n, elemPos := it.elemPos + 1 } := by
          have e : it.offset + k + 1 - it.offset = k + 1 := by omega
          simp only [next, hidx, e, hlen]
          rw [if_pos (by omega), if_neg (by omega), h1]; rfl
        rw [hn]
        have hmul : (it.elemEnd - it.elemPos) * vs.length = (it.elemEnd - (it.elemPos + 1)) * vs.length + vs.length := by
          rw [show it.elemEnd - it.elemPos = it.elemEnd - (it.elemPos + 1) + 1 by omega]; ring
        have := ih { it with items := items', node := n, elemPos := it.elemPos + 1 } 0
          ⟨by simpa [hvec] using h2, hid, hend, hoff, by simp only [h3]; omega, by omega, hp, by
            intro w hw
            rw [hxv] at hw; cases hw
            simpa using h4⟩ (by simp only; omega)
        simp only at this
        simp only [this, Option.map_some, Outcome.map]
        rw [rest_row _ hk' hp]
        simp only [hv, Option.getD_some]
      · have hn : next mem it = .ok { it with node := { it.node with index := it.offset }, elemPos := it.elemPos + 1 } := by
          have e : it.offset + k + 1 - it.offset = k + 1 := by omega
          simp only [next, hidx, e, hlen]
          rw [if_pos (by omega), if_pos (by omega)]
        rw [hn]
        have he : It.eq { it with node := { it.node with index := it.offset }, elemPos := it.elemPos + 1 } stop = true := by
          simp only [It.eq, hid, hend, hoff, hs, beq_self_eq_true, Bool.true_and, Bool.and_true, beq_iff_eq]
          omega
        simp only [loop, he, if_true, Option.map_some, Outcome.map]
        rw [rest_last _ hk' (by omega)]
        simp only [hv, Option.getD_some]

/-! ### The state between calls -/

/-- The collection `c` is what the user's picture `w` says. -/
structure Rel (c : Coll) (w : View) : Prop where
  vecs : c.vecs = w.vecs
  len : c.mtvSize = w.len
  col : c.col = ⟨w.colStart, w.colSize⟩
  elem : c.elem = ⟨w.elemStart, w.elemSize⟩
  colIn : w.colStart + w.colSize ≤ w.vecs.length
  elemIn : w.elemStart + w.elemSize ≤ w.len
  none_ : (w.vecs = [] ∧ w.len = 0) ∨ (0 < w.colSize ∧ 0 < w.elemSize)

theorem nothing_rel : Rel nothing View.none := ⟨rfl, rfl, rfl, rfl, Nat.le_refl _, Nat.le_refl _, Or.inl ⟨rfl, rfl⟩⟩

theorem empty_iff {s : St α} (h : Reachable s) : s.blocks = [] ↔ (contents s).length = 0 := by
  constructor
  · intro hb; simp [contents, hb]
  · intro hl
    cases hb : s.blocks with
    | nil => rfl
    | cons b bs =>
      have h1 := block_facts (reachable_wf h) (i := 0) (b := b) (by rw [hb]; rfl)
      have := len_cur h
      omega

theorem addVecs_ok {mem : Mem α} {n : Nat} : ∀ (vs : List Nat) (c : Coll), (∀ v ∈ vs, Reachable (mem v)) →
    (c.mtvSize = n ∨ c.mtvSize = 0) → 0 < n → (∀ v ∈ vs, (contents (mem v)).length = n) → 
    addVecs mem vs c = .ok { c with vecs := c.vecs ++ vs, mtvSize := if vs = [] then c.mtvSize else n }
  | [], c, _, _, _, _ => by simp [addVecs]
  | v :: vs, c, hr, hc, hn, hl => by
    have h0 := empty_iff (hr v (by simp))
    have h1 := len_cur (hr v (by simp))
    have h2 := hl v (by simp)
    have hne : (mem v).blocks ≠ [] := by rw [Ne, h0]; omega
    have hstep : addVec mem c v = .ok { c with vecs := c.vecs ++ [v], mtvSize := n } := by
      simp only [addVec, if_neg hne]
      rcases hc with hc | hc
      · rw [if_neg (by omega), if_neg (by omega), ← hc]
      · rw [if_pos hc, show (mem v).cur = n by omega]
    rw [addVecs, hstep]
    show addVecs mem vs _ = _
    rw [addVecs_ok vs _ (fun w hw => hr w (by simp [hw])) (Or.inl rfl) hn (fun w hw => hl w (by simp [hw]))]
    simp

theorem addVecs_bad {mem : Mem α} {n : Nat} : ∀ (vs : List Nat) (c : Coll), (∀ v ∈ vs, Reachable (mem v)) →
    c.mtvSize = n → 0 < n → (∃ v ∈ vs, (contents (mem v)).length ≠ n) → addVecs mem vs c = .err .invalidArg
  | [], c, _, _, _, h => by simp at h
  | v :: vs, c, hr, hc, hn, hl => by
    have h0 := empty_iff (hr v (by simp))
    have h1 := len_cur (hr v (by simp))
    rw [addVecs]
    by_cases hv : (contents (mem v)).length = n
    · have hne : (mem v).blocks ≠ [] := by rw [Ne, h0]; omega
      have hstep : addVec mem c v = .ok { c with vecs := c.vecs ++ [v] } := by
        simp only [addVec, if_neg hne]
        rw [if_neg (by omega), if_neg (by omega)]
      rw [hstep]
      refine addVecs_bad vs _ (fun w hw => hr w (by simp [hw])) hc hn ?_
      obtain ⟨w, hw, hwn⟩ := hl
      rcases List.mem_cons.1 hw with rfl | hw
      · exact absurd hv hwn
      · exact ⟨w, hw, hwn⟩
    · have : addVec mem c v = .err .invalidArg := by
        simp only [addVec]
        split
        · rfl
        · rw [if_neg (by omega), if_pos (by omega)]
      rw [this]; rfl

/-- Construction succeeds on containers of one length. -/
theorem mkRange_ok {mem : Mem α} {vs : List Nat} {n : Nat} (hv : vs ≠ []) (hr : ∀ v ∈ vs, Reachable (mem v))
    (h : OneLength mem vs n) : ∃ c, mkRange mem vs = .ok c ∧ Rel c (View.whole vs n) := by
  have := addVecs_ok vs nothing hr (Or.inr rfl) h.1 h.2
  have hp : 0 < vs.length := List.length_pos_iff.2 hv
  have hn := h.1
  cases vs with
  | nil => exact absurd rfl hv
  | cons v rest =>
    refine ⟨⟨v :: rest, n, identityOf v rest, ⟨0, n⟩, ⟨0, (v :: rest).length⟩⟩, ?_, rfl, rfl, rfl, rfl, ?_, ?_, Or.inr ⟨hp, hn⟩⟩
    · rw [mkRange, this]
      simp only [Outcome.bind, nothing, List.nil_append, if_neg hv, if_neg (show ¬ n = 0 by omega)]
    · simp [View.whole]
    · simp [View.whole]

/-- Construction throws otherwise. -/
theorem mkRange_bad {mem : Mem α} {vs : List Nat} (hv : vs ≠ []) (hr : ∀ v ∈ vs, Reachable (mem v))
    (h : ¬ ∃ n, OneLength mem vs n) : mkRange mem vs = .err .invalidArg := by
  cases vs with
  | nil => exact absurd rfl hv
  | cons v rest =>
    have h0 := empty_iff (hr v (by simp))
    have h1 := len_cur (hr v (by simp))
    by_cases hz : (contents (mem v)).length = 0
    · simp only [mkRange, addVecs, addVec, h0.2 hz, if_true, Outcome.bind]
    · have hne : (mem v).blocks ≠ [] := by rw [Ne, h0]; omega
      have hstep : addVec mem nothing v = .ok { nothing with vecs := [v], mtvSize := (mem v).cur } := by
        simp only [addVec, if_neg hne]; rfl
      have hex : ∃ w ∈ rest, (contents (mem w)).length ≠ (contents (mem v)).length := by
        by_contra hc
        push Not at hc
        refine h ⟨(contents (mem v)).length, by omega, ?_⟩
        intro w hw
        rcases List.mem_cons.1 hw with rfl | hw
        · rfl
        · exact hc w hw
      have := addVecs_bad rest { nothing with vecs := [v], mtvSize := (mem v).cur } (fun w hw => hr w (by simp [hw]))
        h1.symm (by omega) hex
      rw [mkRange, addVecs, hstep]
      simp only [Outcome.bind, this]

omit [DecidableEq α] in
theorem oneLength_head {mem : Mem α} {v : Nat} {vs : List Nat} {n : Nat} (h : OneLength mem (v :: vs) n) :
    n = (contents (mem v)).length := (h.2 v (by simp)).symm

theorem check_iff {n a k : Nat} (h : a + k < W) : checkRange n a k = true ↔ Within n a k := by
  simp only [checkRange, Within, Nat.mod_eq_of_lt h, Bool.not_eq_true', Bool.or_eq_false_iff, decide_eq_false_iff_not, beq_eq_false_iff_ne]
  omega

/-- Relation between pairs. -/
def Rel2 (p : Coll × Coll) (q : View × View) : Prop := Rel p.1 q.1 ∧ Rel p.2 q.2

theorem Rel2.side {p : Coll × Coll} {q : View × View} (h : Rel2 p q) (s : Bool) : Rel (side s p) (side s q) := by
  cases s
  · exact h.2
  · exact h.1

theorem Rel2.put {p : Coll × Coll} {q : View × View} (h : Rel2 p q) (s : Bool) {c : Coll} {w : View} (hc : Rel c w) :
    Rel2 (put s c p) (put s w q) := by
  cases s
  · exact ⟨h.1, hc⟩
  · exact ⟨hc, h.2⟩

theorem op_ok {p : Coll × Coll} {q : View × View} (h : Rel2 p q) (o : Op α) (hd : o.Defined) :
    ∃ p', o.run p = some p' ∧ Rel2 p' (o.spec q) := by
  cases o with
  | make s mem vs =>
    obtain ⟨hv, hr⟩ := hd
    cases vs with
    | nil => exact absurd rfl hv
    | cons v rest =>
      by_cases hn : OneLength mem (v :: rest) (contents (mem v)).length
      · obtain ⟨c, h1, h2⟩ := mkRange_ok hv hr hn
        refine ⟨put s c p, by simp only [Op.run, h1, keep], ?_⟩
        simp only [Op.spec, if_pos hn]
        exact h.put s h2
      · have := mkRange_bad hv hr (fun ⟨n, hn'⟩ => hn (by rw [← oneLength_head hn']; exact hn'))
        refine ⟨p, by simp only [Op.run, this, keep], ?_⟩
        simp only [Op.spec, if_neg hn]
        exact h
  | setCol s a n =>
    have hs := h.side s
    have hc := check_iff (n := (side s p).vecs.length) hd
    by_cases hw : Within (side s q).vecs.length a n
    · refine ⟨put s { side s p with col := ⟨a, n⟩ } p, ?_, ?_⟩
      · simp only [Op.run, setCollectionRange]
        rw [if_pos (hc.2 (by rw [hs.vecs]; exact hw))]; rfl
      · simp only [Op.spec, if_pos hw]
        refine h.put s ⟨hs.vecs, hs.len, rfl, hs.elem, hw.2, hs.elemIn, ?_⟩
        rcases hs.none_ with hn | hn
        · exact Or.inl hn
        · exact Or.inr ⟨hw.1, hn.2⟩
    · refine ⟨p, ?_, by simp only [Op.spec, if_neg hw]; exact h⟩
      simp only [Op.run, setCollectionRange]
      rw [if_neg (fun hx => hw (by rw [← hs.vecs]; exact hc.1 hx))]; rfl
  | setElem s a n =>
    have hs := h.side s
    have hc := check_iff (n := (side s p).mtvSize) hd
    by_cases hw : Within (side s q).len a n
    · refine ⟨put s { side s p with elem := ⟨a, n⟩ } p, ?_, ?_⟩
      · simp only [Op.run, setElementRange]
        rw [if_pos (hc.2 (by rw [hs.len]; exact hw))]; rfl
      · simp only [Op.spec, if_pos hw]
        refine h.put s ⟨hs.vecs, hs.len, hs.col, rfl, hs.colIn, hw.2, ?_⟩
        rcases hs.none_ with hn | hn
        · exact Or.inl hn
        · exact Or.inr ⟨hn.1, hw.1⟩
    · refine ⟨p, ?_, by simp only [Op.spec, if_neg hw]; exact h⟩
      simp only [Op.run, setElementRange]
      rw [if_neg (fun hx => hw (by rw [← hs.len]; exact hc.1 hx))]; rfl
  | swap => exact ⟨(p.2, p.1), rfl, h.2, h.1⟩

theorem ops_ok (os : List (Op α)) : ∀ {p : Coll × Coll} {q : View × View}, Rel2 p q → (∀ o ∈ os, o.Defined) →
    ∃ p', runOps os p = some p' ∧ Rel2 p' (specOps os q) := by
  induction os with
  | nil => intro p q h _; exact ⟨p, rfl, h⟩
  | cons o os ih =>
    intro p q h hd
    obtain ⟨p1, h1, h2⟩ := op_ok h o (hd o (by simp))
    obtain ⟨p2, h3, h4⟩ := ih h2 (fun o ho => hd o (by simp [ho]))
    exact ⟨p2, by rw [runOps, h1]; exact h3, h4⟩

/-! ### Traversal -/

theorem traverse_ok {mem : Mem α} {c : Coll} {w : View} (h : Rel c w) (hr : ∀ v ∈ w.vecs, Reachable (mem v))
    (hl : ∀ v ∈ w.vecs, (contents (mem v)).length = w.len) (hW : w.len < W) (fuel : Nat)
    (hf : w.elemSize * w.colSize < fuel) : traverse mem c fuel = some (.ok (w.rows (cellOf mem))) := by
  have hmod : (w.elemStart + w.elemSize) % W = w.elemStart + w.elemSize := Nat.mod_eq_of_lt (by have := h.elemIn; omega)
  have hb : buildState c = .ok (((w.vecs.drop w.colStart).take w.colSize).map fun v => ⟨v, 0⟩) := by
    rw [buildState, h.col, h.vecs, if_pos h.colIn]
  obtain ⟨f, rfl⟩ : ∃ f, fuel = f + 1 := ⟨fuel - 1, by omega⟩
  have hcol := h.colIn
  have helem := h.elemIn
  rcases h.none_ with ⟨hn, hz⟩ | ⟨hcs, hes⟩
  · rw [hn] at hcol hb
    have h1 : w.elemSize = 0 := by omega
    have h2 : w.elemStart = 0 := by omega
    simp [traverse, begin_, end_, hb, h.col, h.elem, Outcome.bind, loop, It.eq, h1, h2, View.rows]
  · have hvl : ((w.vecs.drop w.colStart).take w.colSize).length = w.colSize := by
      rw [List.length_take, List.length_drop]; omega
    generalize hvs : (w.vecs.drop w.colStart).take w.colSize = vs at hb hvl
    have hsub : ∀ v ∈ vs, v ∈ w.vecs := by
      intro v hv; rw [← hvs] at hv; exact List.mem_of_mem_drop (List.mem_of_mem_take hv)
    have hget : ∀ j, j < w.colSize → vs[j]? = w.vecs[w.colStart + j]? := by
      intro j hj; rw [← hvs, List.getElem?_take, if_pos hj, List.getElem?_drop]
    cases hvc : vs with
    | nil => rw [hvc] at hvl; simp at hvl; omega
    | cons v0 vr =>
      have hv0 : v0 ∈ w.vecs := hsub _ (by rw [hvc]; simp)
      obtain ⟨items', n, g1, g2, g3, g4⟩ := visit_ok (items := vs.map fun v => (⟨v, 0⟩ : Item)) (k := 0) (x := ⟨v0, 0⟩)
        (by rw [hvc]; rfl) (hr _ hv0) (pos := w.elemStart) (by rw [hl _ hv0]; omega) w.colStart
      have hbeg : begin_ mem c = .ok ⟨items', n, w.elemStart, w.elemStart + w.elemSize, w.colStart, c.identity⟩ := by
        simp only [begin_, hb, h.col, h.elem, Outcome.bind, hmod]
        rw [if_neg (by rw [hvc]; simp), g1]
      have hend : end_ c = .ok ⟨vs.map fun v => ⟨v, 0⟩, ⟨none, w.colStart, none, none⟩, w.elemStart + w.elemSize,
          w.elemStart + w.elemSize, w.colStart, c.identity⟩ := by
        simp only [end_, hb, h.col, h.elem, Outcome.bind, hmod]
      have hit : items'.map Item.vec = vs := by
        rw [g2, List.map_map]; exact List.map_id'' (fun _ => rfl) vs
      simp only [traverse, hbeg, hend]
      rw [loop_ok (vs := vs) (stop := ⟨vs.map fun v => ⟨v, 0⟩, ⟨none, w.colStart, none, none⟩, w.elemStart + w.elemSize,
          w.elemStart + w.elemSize, w.colStart, c.identity⟩) rfl (fun v hv => hr v (hsub v hv)) (fun v hv => by rw [hl v (hsub v hv)]; exact helem) f
        ⟨items', n, w.elemStart, w.elemStart + w.elemSize, w.colStart, c.identity⟩ 0
        ⟨hit, rfl, rfl, rfl, by simpa using g3, by omega, by simp only; omega, by
          intro v hv
          rw [hvc] at hv; cases hv
          simpa using g4⟩ (by simp only [hvl]; rw [show w.elemStart + w.elemSize - w.elemStart = w.elemSize by omega]; omega)]
      rw [rest_all _ (by simp only; omega)]
      simp only [View.rows, hvl, show w.elemStart + w.elemSize - w.elemStart = w.elemSize by omega]
      congr 2
      apply List.flatMap_congr
      intro q _
      rw [show List.range' w.colStart w.colSize = (List.range' 0 w.colSize).map (w.colStart + ·) by
        rw [List.map_add_range']; rfl, List.filterMap_map]
      rw [← List.filterMap_eq_map]
      apply List.filterMap_congr
      intro j hj
      have hj' : j < w.colSize := by simpa using hj
      have hlt : w.colStart + j < w.vecs.length := by omega
      simp only [Function.comp, hget j hj', List.getElem?_eq_getElem hlt, Option.getD_some, Option.map_some]

end Mdds.Coll
