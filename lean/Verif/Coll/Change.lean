import Verif.Coll.Props
/-!
# Collections whose containers change while they are traversed (C75)

A collection holds addresses of containers and the loop holds an iterator with one block hint for
each container.  Here the containers may be changed in every round of the loop, after the element
was read and before `++`; `mems r` is what the containers are when element `r` is looked up and
read.  The functions of `Model.lean` are used as they are.
-/

namespace Mdds.Coll

open Mdds.Mtv

variable {α : Type} [DecidableEq α]

/-! ### Model -/

/-- The loop of `loop` (`for (it = c.begin(); it != c.end(); ++it)`) from round `r` on: the
iterator reads its node, the body of the loop changes containers, and `++` (collection_def.inl
49-76) looks up the next element. -/
def loopOver (mems : Nat → Mem α) (stop : It) : Nat → Nat → It → Option (Outcome (List (Nat × Nat × Cell α)))
  | 0, _, _ => none
  | fuel + 1, r, it =>
    if it.eq stop then some (.ok [])
    else
      match readNode (mems r) it.node with
      | .ub => some .ub
      | .err e => some (.err e)
      | .ok v =>
        match next (mems (r + 1)) it with
        | .ub => some .ub
        | .err e => some (.err e)
        | .ok it' => (loopOver mems stop fuel (r + 1) it').map (Outcome.map (v :: ·))

/-- The whole traversal; `begin` and `end` are called on the first state of the containers. -/
def traverseOver (mems : Nat → Mem α) (c : Coll) (fuel : Nat) : Option (Outcome (List (Nat × Nat × Cell α))) :=
  match begin_ (mems 0) c, end_ c with
  | .ok it, .ok stop => loopOver mems stop fuel 0 it
  | .err e, _ | _, .err e => some (.err e)
  | _, _ => some .ub

/-! ### Specification -/

/-- The places of a traversal in order: index of the container, the container, the position. -/
def View.places (w : View) : List (Nat × Nat × Nat) :=
  (List.range' w.elemStart w.elemSize).flatMap fun p =>
    (List.range' w.colStart w.colSize).filterMap fun k => w.vecs[k]?.map fun v => (k, v, p)

/-- Place `i` shows the cell that is there in round `i`. -/
def View.shownOver (w : View) (mems : Nat → Mem α) : List (Nat × Nat × Cell α) :=
  w.places.zipIdx.map fun x => (x.1.1, x.1.2.2, cellOf (mems x.2) x.1.2.1 x.1.2.2)

/-! ### Proof -/

/-- Place `(j, q)` in round `i`. -/
def showAt (mems : Nat → Mem α) (vs : List Nat) (offset : Nat) (x : (Nat × Nat) × Nat) : Nat × Nat × Cell α :=
  (offset + x.1.1, x.1.2, cellOf (mems x.2) (vs[x.1.1]?.getD 0) x.1.2)

theorem loopOver_ok {mems : Nat → Mem α} {vs : List Nat} {stop : It} (hs : stop.elemPos = stop.elemEnd)
    (hr : ∀ r, ∀ v ∈ vs, Reachable (mems r v)) (hl : ∀ r, ∀ v ∈ vs, stop.elemEnd ≤ (contents (mems r v)).length) (fuel : Nat) :
    ∀ (r : Nat) (it : It) (k : Nat), On (mems r) vs stop it k → (it.elemEnd - it.elemPos) * vs.length ≤ fuel + k →
      loopOver mems stop (fuel + 1) r it =
        some (.ok (((rest (fun j q => (j, q)) vs.length it.elemEnd it.elemPos k).zipIdx r).map (showAt mems vs it.offset))) := by
  induction fuel with
  | zero =>
    intro r it k h hf
    exfalso
    have h1 := h.pos
    have h2 := h.lt
    have : 1 * vs.length ≤ (it.elemEnd - it.elemPos) * vs.length := Nat.mul_le_mul_right _ (by omega)
    omega
  | succ fuel ih =>
    intro r it k h hf
    obtain ⟨hvec, hid, hend, hoff, hidx, hlt, hpos, hread⟩ := h
    have hlen : it.items.length = vs.length := by rw [← hvec, List.length_map]
    have hne : it.eq stop = false := by
      simp only [It.eq, hs, Bool.and_eq_false_imp]
      intro h1
      have : it.elemPos ≠ stop.elemEnd := by omega
      simp [this] at h1
    obtain ⟨v, hv⟩ : ∃ v, vs[k]? = some v := ⟨vs[k], List.getElem?_eq_getElem hlt⟩
    have hitem : ∀ j, j < vs.length → ∃ x : Item, it.items[j]? = some x ∧ vs[j]? = some x.vec := by
      intro j hj
      have : j < it.items.length := by omega
      refine ⟨it.items[j], List.getElem?_eq_getElem this, ?_⟩
      rw [← hvec, List.getElem?_map, List.getElem?_eq_getElem this]; rfl
    have hmem : ∀ j v, vs[j]? = some v → v ∈ vs := fun j v hj => List.mem_of_getElem? hj
    rw [loopOver, hne, hread v hv]
    simp only [Bool.false_eq_true, if_false]
    by_cases hk : k + 1 < vs.length
    · obtain ⟨x, hx, hxv⟩ := hitem (k + 1) hk
      obtain ⟨items', n, h1, h2, h3, h4⟩ := visit_ok hx (hr (r + 1) _ (hmem _ _ hxv)) (pos := it.elemPos)
        (by have := hl (r + 1) _ (hmem _ _ hxv); omega) (it.offset + k + 1)
      have hn : next (mems (r + 1)) it = .ok { it with items := items', node := n } := by
        have e : it.offset + k + 1 - it.offset = k + 1 := by omega
        simp only [next, hidx, e, hlen]
        rw [if_neg (by omega), h1]; rfl
      rw [hn]
      have := ih (r + 1) { it with items := items', node := n } (k + 1)
        ⟨by simpa [hvec] using h2, hid, hend, hoff, by simp only [h3]; omega, hk, hpos, by
          intro w hw
          rw [hxv] at hw; cases hw
          simpa [Nat.add_assoc] using h4⟩ (by simp only; omega)
      simp only at this
      simp only [this, Option.map_some, Outcome.map]
      rw [rest_in _ hk, List.zipIdx_cons, List.map_cons]
      simp only [showAt, hv, Option.getD_some]
    · have hk' : k + 1 = vs.length := by omega
      by_cases hp : it.elemPos + 1 < it.elemEnd
      · obtain ⟨x, hx, hxv⟩ := hitem 0 (by omega)
        obtain ⟨items', n, h1, h2, h3, h4⟩ := visit_ok hx (hr (r + 1) _ (hmem _ _ hxv)) (pos := it.elemPos + 1)
          (by have := hl (r + 1) _ (hmem _ _ hxv); omega) it.offset
        have hn : next (mems (r + 1)) it = .ok { it with items := items', node := n, elemPos := it.elemPos + 1 } := by
          have e : it.offset + k + 1 - it.offset = k + 1 := by omega
          simp only [next, hidx, e, hlen]
          rw [if_pos (by omega), if_neg (by omega), h1]; rfl
        rw [hn]
        have hmul : (it.elemEnd - it.elemPos) * vs.length = (it.elemEnd - (it.elemPos + 1)) * vs.length + vs.length := by
          rw [show it.elemEnd - it.elemPos = it.elemEnd - (it.elemPos + 1) + 1 by omega]; ring
        have := ih (r + 1) { it with items := items', node := n, elemPos := it.elemPos + 1 } 0
          ⟨by simpa [hvec] using h2, hid, hend, hoff, by simp only [h3]; omega, by omega, hp, by
            intro w hw
            rw [hxv] at hw; cases hw
            simpa using h4⟩ (by simp only; omega)
        simp only at this
        simp only [this, Option.map_some, Outcome.map]
        rw [rest_row _ hk' hp, List.zipIdx_cons, List.map_cons]
        simp only [showAt, hv, Option.getD_some]
      · have hn : next (mems (r + 1)) it = .ok { it with node := { it.node with index := it.offset }, elemPos := it.elemPos + 1 } := by
          have e : it.offset + k + 1 - it.offset = k + 1 := by omega
          simp only [next, hidx, e, hlen]
          rw [if_pos (by omega), if_pos (by omega)]
        rw [hn]
        have he : It.eq { it with node := { it.node with index := it.offset }, elemPos := it.elemPos + 1 } stop = true := by
          simp only [It.eq, hid, hend, hoff, hs, beq_self_eq_true, Bool.true_and, Bool.and_true, beq_iff_eq]
          omega
        simp only [loopOver, he, if_true, Option.map_some, Outcome.map]
        rw [rest_last _ hk' (by omega)]
        simp only [List.zipIdx_cons, List.zipIdx_nil, List.map_cons, List.map_nil, showAt, hv, Option.getD_some]

theorem traverseOver_ok {mems : Nat → Mem α} {c : Coll} {w : View} (h : Rel c w) (hr : ∀ r, ∀ v ∈ w.vecs, Reachable (mems r v))
    (hl : ∀ r, ∀ v ∈ w.vecs, w.elemStart + w.elemSize ≤ (contents (mems r v)).length) (hW : w.len < W) (fuel : Nat)
    (hf : w.elemSize * w.colSize < fuel) : traverseOver mems c fuel = some (.ok (w.shownOver mems)) := by
  have hmod : (w.elemStart + w.elemSize) % W = w.elemStart + w.elemSize := Nat.mod_eq_of_lt (by have := h.elemIn; omega)
  have hb : buildState c = .ok (((w.vecs.drop w.colStart).take w.colSize).map fun v => ⟨v, 0⟩) := by
    rw [buildState, h.col, h.vecs, if_pos h.colIn]
  obtain ⟨f, rfl⟩ : ∃ f, fuel = f + 1 := ⟨fuel - 1, by omega⟩
  have hcol := h.colIn
  have helem := h.elemIn
  rcases h.none_ with ⟨hn, hz⟩ | ⟨hcs, hes⟩
  · rw [hn] at hcol hb
    have h1 : w.elemSize = 0 := by omega
    have h2 : w.elemStart = 0 := by omega
    simp [traverseOver, begin_, end_, hb, h.col, h.elem, Outcome.bind, loopOver, It.eq, h1, h2, View.shownOver, View.places]
  · have hvl : ((w.vecs.drop w.colStart).take w.colSize).length = w.colSize := by
      rw [List.length_take, List.length_drop]; omega
    generalize hvs : (w.vecs.drop w.colStart).take w.colSize = vs at hb hvl
    have hsub : ∀ v ∈ vs, v ∈ w.vecs := by
      intro v hv; rw [← hvs] at hv; exact List.mem_of_mem_drop (List.mem_of_mem_take hv)
    have hget : ∀ j, j < w.colSize → vs[j]? = w.vecs[w.colStart + j]? := by
      intro j hj; rw [← hvs, List.getElem?_take, if_pos hj, List.getElem?_drop]
    cases hvc : vs with
    | nil => rw [hvc] at hvl; simp at hvl; omega
    | cons v0 vr =>
      have hv0 : v0 ∈ w.vecs := hsub _ (by rw [hvc]; simp)
      obtain ⟨items', n, g1, g2, g3, g4⟩ := visit_ok (items := vs.map fun v => (⟨v, 0⟩ : Item)) (k := 0) (x := ⟨v0, 0⟩)
        (by rw [hvc]; rfl) (hr 0 _ hv0) (pos := w.elemStart) (by have := hl 0 _ hv0; simp only; omega) w.colStart
      have hbeg : begin_ (mems 0) c = .ok ⟨items', n, w.elemStart, w.elemStart + w.elemSize, w.colStart, c.identity⟩ := by
        simp only [begin_, hb, h.col, h.elem, Outcome.bind, hmod]
        rw [if_neg (by rw [hvc]; simp), g1]
      have hend : end_ c = .ok ⟨vs.map fun v => ⟨v, 0⟩, ⟨none, w.colStart, none, none⟩, w.elemStart + w.elemSize,
          w.elemStart + w.elemSize, w.colStart, c.identity⟩ := by
        simp only [end_, hb, h.col, h.elem, Outcome.bind, hmod]
      have hit : items'.map Item.vec = vs := by
        rw [g2, List.map_map]; exact List.map_id'' (fun _ => rfl) vs
      simp only [traverseOver, hbeg, hend]
      rw [loopOver_ok (vs := vs) (stop := ⟨vs.map fun v => ⟨v, 0⟩, ⟨none, w.colStart, none, none⟩, w.elemStart + w.elemSize,
          w.elemStart + w.elemSize, w.colStart, c.identity⟩) rfl (fun r v hv => hr r v (hsub v hv)) (fun r v hv => hl r v (hsub v hv)) f 0
        ⟨items', n, w.elemStart, w.elemStart + w.elemSize, w.colStart, c.identity⟩ 0
        ⟨hit, rfl, rfl, rfl, by simpa using g3, by omega, by simp only; omega, by
          intro v hv
          rw [hvc] at hv; cases hv
          simpa using g4⟩ (by simp only [hvl]; rw [show w.elemStart + w.elemSize - w.elemStart = w.elemSize by omega]; omega)]
      rw [rest_all _ (by simp only; omega)]
      simp only [View.shownOver, hvl, show w.elemStart + w.elemSize - w.elemStart = w.elemSize by omega]
      congr 2
      have hplaces : w.places = ((List.range' w.elemStart w.elemSize).flatMap fun q => (List.range' 0 w.colSize).map fun j => (j, q)).map
          fun x => (w.colStart + x.1, vs[x.1]?.getD 0, x.2) := by
        rw [View.places, List.map_flatMap]
        apply List.flatMap_congr
        intro q _
        rw [show List.range' w.colStart w.colSize = (List.range' 0 w.colSize).map (w.colStart + ·) by
          rw [List.map_add_range']; rfl, List.filterMap_map, List.map_map]
        rw [← List.filterMap_eq_map]
        apply List.filterMap_congr
        intro j hj
        have hj' : j < w.colSize := by simpa using hj
        have hlt : w.colStart + j < w.vecs.length := by omega
        simp only [Function.comp, hget j hj', List.getElem?_eq_getElem hlt, Option.getD_some, Option.map_some]
      rw [hplaces, List.zipIdx_map, List.map_map]
      rfl

/-! ### Properties -/

/-- However the collection came about, and however the containers are changed in each round, as
long as none of them gets shorter than the range of positions: the loop ends after visiting each
place once, and place number `i` shows the cell that is there in round `i`. -/
theorem C75_traverse (os : List (Op α)) (hd : ∀ o ∈ os, o.Defined) :
    ∃ p, runOps os (nothing, nothing) = some p ∧ ∀ (s : Bool) (mems : Nat → Mem α),
      let w := side s (specOps os (View.none, View.none))
      (∀ r, ∀ v ∈ w.vecs, Reachable (mems r v)) →
      (∀ r, ∀ v ∈ w.vecs, w.elemStart + w.elemSize ≤ (contents (mems r v)).length) → w.len < W →
      ∀ fuel, w.elemSize * w.colSize < fuel → traverseOver mems (side s p) fuel = some (.ok (w.shownOver mems)) := by
  obtain ⟨p, h1, h2⟩ := ops_ok os (p := (nothing, nothing)) (q := (View.none, View.none)) ⟨nothing_rel, nothing_rel⟩ hd
  exact ⟨p, h1, fun s mems hr hl hW fuel hf => traverseOver_ok (h2.side s) hr hl hW fuel hf⟩

omit [DecidableEq α] in
/-- Without changes this is C45. -/
theorem C75_unchanged (w : View) (mem : Mem α) : w.shownOver (fun _ => mem) = w.rows (cellOf mem) := by
  have : ∀ (l : List (Nat × Nat × Nat)) (n : Nat), (l.zipIdx n).map (fun x : (Nat × Nat × Nat) × Nat => (x.1.1, x.1.2.2, cellOf mem x.1.2.1 x.1.2.2)) =
      l.map fun x => (x.1, x.2.2, cellOf mem x.2.1 x.2.2) := by
    intro l
    induction l with
    | nil => intro n; rfl
    | cons a l ih => intro n; rw [List.zipIdx_cons, List.map_cons, List.map_cons, ih]
  rw [View.shownOver, this, View.places, View.rows, List.map_flatMap]
  apply List.flatMap_congr
  intro p _
  rw [List.map_filterMap]
  apply List.filterMap_congr
  intro k _
  cases w.vecs[k]? <;> rfl

/-- A container that became too short: looking up a position behind its end throws, looking up
its end reads the type of a block that does not exist. -/
theorem C75_short {mem : Mem α} {items : List Item} {k : Nat} {x : Item} (hx : items[k]? = some x)
    (hr : Reachable (mem x.vec)) (index : Nat) {pos : Nat} (hn : contents (mem x.vec) ≠ []) :
    ((contents (mem x.vec)).length < pos → visit mem items k index pos = .err .outOfRange) ∧
    ((contents (mem x.vec)).length = pos → visit mem items k index pos = .ub) := by
  have hpos := C29_position hr (some (some x.blockPos)) (Or.inr hn) pos
  constructor
  · intro h
    simp only [visit, hx, hpos.2 h]
  · intro h
    obtain ⟨p, h1, h2, -⟩ := hpos.1 (by omega)
    have hc := len_cur hr
    have hw := reachable_wf hr
    rcases h2 with ⟨b, hb, h3, h4⟩ | ⟨rfl, -⟩
    · have := block_facts hw hb
      obtain ⟨f1, f2, f3, -⟩ := this
      omega
    · simp [visit, hx, h1]

/-! ### Examples -/

/-- Containers 2 and 3 change places after the first element was read (all blocks become others),
and after the second element they are all container 1. -/
def exMems (r : Nat) : Mem Nat := fun v =>
  if r = 0 then exMem v else if r = 1 then exMem (if v = 2 then 3 else if v = 3 then 2 else v) else exMem 1

theorem exMems_reachable (r v : Nat) : Reachable (exMems r v) := by
  unfold exMems
  split
  · exact exMem_reachable v
  · split <;> exact exMem_reachable _

theorem exMems_len (r : Nat) : ∀ v ∈ [1, 2, 3], 5 ≤ (contents (exMems r v)).length := by
  unfold exMems
  split
  · decide +kernel
  · split
    · decide +kernel
    · intro v _; decide +kernel

/-- The history of C45 meets the hypotheses with these changes. -/
example : let w := side false (specOps exOps (View.none, View.none))
    (∀ r, ∀ v ∈ w.vecs, Reachable (exMems r v)) ∧
    (∀ r, ∀ v ∈ w.vecs, w.elemStart + w.elemSize ≤ (contents (exMems r v)).length) ∧ w.len < W ∧ w.elemSize * w.colSize = 4 := by
  have e : side false (specOps exOps (View.none, View.none)) = ⟨[1, 2, 3], 7, 1, 2, 3, 2⟩ := by decide +kernel
  rw [e]
  exact ⟨fun r v _ => exMems_reachable r v, exMems_len, by decide, rfl⟩

/-- What such a traversal shows. -/
example : (side false (specOps exOps (View.none, View.none))).shownOver exMems =
    [(1, 3, some (tI, 30)), (2, 3, some (tI, 30)), (1, 4, some (tS, 4)), (2, 4, some (tS, 4))] := by decide +kernel

/-- A container of length 2 in place of one of length 7. -/
example : ([⟨4, 0⟩] : List Item)[0]? = some ⟨4, 0⟩ ∧ Reachable (exMem 4) ∧ contents (exMem 4) ≠ [] ∧
    (contents (exMem 4)).length = 2 := ⟨rfl, exMem_reachable 4, by decide +kernel, by decide +kernel⟩

/-- An element that was looked up before its container changed is read through the old block
position: reading after the change may use a block that does not exist, although the container
still has the position.  (The loop above reads each element before it changes anything.) -/
theorem C75_late_read_fails : ∃ (c : Coll) (it : It) (mem' : Mem Nat), mkRange exMem [1, 2, 3] = .ok c ∧
    begin_ exMem { c with elem := ⟨3, 2⟩ } = .ok it ∧ (∀ v, Reachable (mem' v)) ∧ (∀ v ∈ [1, 2, 3], (contents (mem' v)).length = 7) ∧
    readNode exMem it.node = .ok (0, 3, some (tS, 3)) ∧ cellOf mem' 1 3 = some (tS, 13) ∧ readNode mem' it.node = .ub := by
  refine ⟨(match mkRange exMem [1, 2, 3] with | .ok c => c | _ => nothing), _, fun v => exMem (if v = 1 then 3 else v), by decide +kernel, rfl,
    fun v => exMem_reachable _, by decide +kernel, by decide +kernel, ?_, ?_⟩
  all_goals decide +kernel

end Mdds.Coll
