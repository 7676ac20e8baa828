import Verif.Mtv.IterOk

/-!
# multi_type_vector iterators: the property theorems (C74)
-/

namespace Mdds.Mtv.Iter
open Mdds

variable {α : Type} [DecidableEq α]

/-- The world and what it stands for after a legal program. -/
def Reached (w : World α) (u : SWorld α) : Prop :=
  ∃ cs xs, SWorld.empty.LegalAll cs ∧ World.empty.run cs = .ok (w, xs) ∧ u = (SWorld.empty.run cs).1

theorem reached_rep {w : World α} {u : SWorld α} (h : Reached w u) : Rep w u := by
  obtain ⟨cs, xs, h1, h2, rfl⟩ := h
  obtain ⟨w', h3, h4⟩ := run_ok cs rep_empty h1
  rw [h2] at h3; cases h3; exact h4

/-- The answers of a run. -/
def answers : Outcome (World α × List (Ans α)) → Option (List (Ans α))
  | .ok r => some r.2
  | _ => none

/-! ### Programs -/

/-- Every legal program over containers and kept iterators runs without undefined behaviour and
answers as the specification says: iterators move block by block, show the description read when
they were last moved, survive copies, swaps of iterators, swaps and moves of containers and
calls in place, and hints change nothing. -/
theorem C74_programs_partial (cs : List (Cmd α)) (h : SWorld.empty.LegalAll cs) :
    answers (World.empty.run cs) = some (SWorld.empty.run cs).2 := by
  obtain ⟨w', h1, -⟩ := run_ok cs rep_empty h
  rw [h1]; rfl

/-! ### Walking over the blocks -/

/-- The blocks from an iterator to the end, in its direction. -/
def rest (s : St α) (rev : Bool) (k : Nat) : List (Blk α) := if rev then (s.blocks.take k).reverse else s.blocks.drop k

/-- `while (i != j) { *i; ++i; }` with `n` rounds. -/
def loop (i j : Nat) : Nat → List (Cmd α)
  | 0 => [.equal i j]
  | n + 1 => .equal i j :: .deref i :: .inc i :: loop i j n

/-- What the loop shows. -/
def shown : List Info → List (Ans α)
  | [] => [.bool true]
  | x :: xs => .bool false :: .info x :: .unit :: shown xs

omit [DecidableEq α] in
theorem rest_cons {s : St α} {rev : Bool} {k : Nat} {b : Blk α} {l : List (Blk α)} (hk : k ≤ s.blocks.length)
    (h : rest s rev k = b :: l) :
    blockAt s rev k = some b ∧ rest s rev (fwd rev k) = l ∧ fwd rev k ≤ s.blocks.length ∧ k ≠ lastIdx s rev := by
  cases rev
  · simp only [rest, Bool.false_eq_true, if_false] at h
    have hlt : k < s.blocks.length := by
      by_contra hc; rw [List.drop_eq_nil_of_le (by omega)] at h; cases h
    rw [List.drop_eq_getElem_cons hlt] at h
    cases h
    simp [blockAt, rest, fwd, lastIdx]; omega
  · simp only [rest, if_true] at h
    cases k with
    | zero => simp at h
    | succ k =>
      rw [List.take_succ_eq_append_getElem (by omega), List.reverse_append] at h
      simp only [List.reverse_cons, List.reverse_nil, List.nil_append, List.cons_append, List.cons.injEq] at h
      have hlt : k < s.blocks.length := by omega
      refine ⟨by simp [blockAt, hlt, h.1], by simp [rest, fwd, h.2], by simp [fwd]; omega, by simp [lastIdx]⟩

omit [DecidableEq α] in
theorem rest_nil {s : St α} {rev : Bool} {k : Nat} (hk : k ≤ s.blocks.length) (h : rest s rev k = []) : k = lastIdx s rev := by
  cases rev
  · simp [rest] at h; simp [lastIdx]; omega
  · simp only [rest, if_true, List.reverse_eq_nil_iff, List.take_eq_nil_iff] at h
    simp only [lastIdx, if_true]
    rcases h with h | h
    · exact h
    · rw [h] at hk; simpa using hk

omit [DecidableEq α] in
theorem loop_spec {s : St α} (rev const : Bool) (o : Option Nat) (a : Nat) {i j : Nat} (hij : i ≠ j) (l : List (Blk α)) :
    ∀ (u : SWorld α) (k : Nat), u.stores a = some s → k ≤ s.blocks.length → rest s rev k = l →
      u.its i = some (place s rev const o a k) → u.its j = some (place s rev const o a (lastIdx s rev)) →
      u.LegalAll (loop i j l.length) ∧ (u.run (loop i j l.length)).2 = shown (l.map Blk.info) := by
  induction l with
  | nil =>
    intro u k hs hk hr hi hj
    have hl := rest_nil hk hr
    subst hl
    refine ⟨⟨⟨_, _, hi, hj, rfl, rfl, rfl, by simp [SWorld.alive, place, hs]⟩, trivial⟩, ?_⟩
    simp only [loop, List.length_nil, SWorld.run, SWorld.step, hi, hj, SIt.same, shown, List.map_nil]
    simp
  | cons b l ih =>
    intro u k hs hk hr hi hj
    obtain ⟨hb, hr', hk', hne⟩ := rest_cons hk hr
    have hal : u.alive (place s rev const o a k) = some (s, a, k) := by simp [SWorld.alive, place, hs]
    have hseen : (place s rev const o a k).seen = some b.info := by simp [place, infoAt, hb]
    have hu1 : u.step (.equal i j) = (u, .bool false) := by
      simp only [SWorld.step, hi, hj, SIt.same, place, Option.some.injEq, Prod.mk.injEq, true_and, hne, false_and, decide_false]
    have hu2 : u.step (.deref i) = (u, .info b.info) := by
      simp only [SWorld.step, hi, place, infoAt, hb, Option.map_some]
    have hu3 : u.step (.inc i) = (u.setIt i (place s rev const o a (fwd rev k)), .unit) := by
      simp only [SWorld.step, hi, hal]; rfl
    obtain ⟨h1, h2⟩ := ih (u.setIt i (place s rev const o a (fwd rev k))) (fwd rev k) hs hk' hr' (put_same _ _ _)
      ((put_other _ _ (Ne.symm hij)).trans hj)
    constructor
    · refine ⟨⟨_, _, hi, hj, rfl, rfl, rfl, by rw [hal]; simp⟩, ?_⟩
      rw [hu1]
      refine ⟨⟨_, hi, by rw [hseen]; simp⟩, ?_⟩
      rw [hu2]
      refine ⟨⟨_, hi, by rw [hal]; simp, by rw [hseen]; simp⟩, ?_⟩
      rw [hu3]
      exact h1
    · simp only [List.length_cons, loop, SWorld.run, hu1, hu2, hu3, h2, List.map_cons, shown]

/-- In every world that legal programs reach, the loop from `begin` to `end` of any of the four
kinds over any container shows exactly its blocks, in order (backwards for the reverse kinds), and
stops; the blocks lie side by side from position 0 and cover the container, unless it was moved
from. -/
theorem C74_walk {w : World α} {u : SWorld α} (h : Reached w u) {c a : Nat} {intact : Bool} {s : St α}
    (hc : u.store c = some (a, intact, s)) (rev const : Bool) {i j : Nat} (hij : i ≠ j) :
    (∃ w', w.run (.begin_ c rev const i :: .end_ c rev const j :: loop i j s.blocks.length) =
      .ok (w', .unit :: .unit :: shown ((if rev then s.blocks.reverse else s.blocks).map Blk.info))) ∧
    (intact = true → Tiled s) := by
  have hr := reached_rep h
  obtain ⟨hc1, hs⟩ := store_ctr hc
  constructor
  · have hu1 : u.step (.begin_ c rev const i) = (u.setIt i (place s rev const (some c) a (firstIdx s rev)), .unit) := by
      simp only [SWorld.step, hc]
    let u1 := u.setIt i (place s rev const (some c) a (firstIdx s rev))
    have hc' : u1.store c = some (a, intact, s) := hc
    have hu2 : u1.step (.end_ c rev const j) = (u1.setIt j (place s rev const (some c) a (lastIdx s rev)), .unit) := by
      simp only [SWorld.step, hc']
    have hrest : rest s rev (firstIdx s rev) = if rev then s.blocks.reverse else s.blocks := by
      cases rev <;> simp [rest, firstIdx]
    have hlen : (if rev then s.blocks.reverse else s.blocks).length = s.blocks.length := by cases rev <;> simp
    obtain ⟨h1, h2⟩ := loop_spec rev const (some c) a hij (if rev then s.blocks.reverse else s.blocks)
      (u1.setIt j (place s rev const (some c) a (lastIdx s rev))) (firstIdx s rev) hs (by cases rev <;> simp [firstIdx]) hrest
      ((put_other _ _ hij).trans (put_same _ _ _)) (put_same _ _ _)
    rw [hlen] at h1 h2
    obtain ⟨w', h3, -⟩ := run_ok (.begin_ c rev const i :: .end_ c rev const j :: loop i j s.blocks.length) hr
      ⟨by rw [SWorld.Legal, hc1]; simp, by
        rw [hu1]
        refine ⟨by rw [SWorld.Legal]; show u.ctrs c ≠ none; rw [hc1]; simp, ?_⟩
        rw [hu2]; exact h1⟩
    refine ⟨w', ?_⟩
    rw [h3]
    simp only [SWorld.run, hu1]
    rw [show (u.setIt i (place s rev const (some c) a (firstIdx s rev))) = u1 from rfl]
    simp only [hu2, h2]
  · rintro rfl
    obtain ⟨t, ht, htr⟩ := hr.live _ _ _ hc1
    rw [hs] at ht; cases ht
    exact ((wf_weak s).1 (htr rfl)).1

/-! ### Hints -/

/-- Any forward iterator that exists — default constructed, at the end, dangling, or made by
another container — may be passed as a hint to a call on a non-empty container: result, effect and
returned iterator are those of the call without a hint. -/
theorem C74_hint {w : World α} {u : SWorld α} (h : Reached w u) {c a : Nat} {s : St α} (hc : u.store c = some (a, true, s))
    (hn : contents s ≠ []) {i : Nat} {x : SIt} (hx : u.its i = some x) (f : Call α) (ret : Option Nat) :
    w.step (.call c f (some i) ret) = w.step (.call c f none ret) := by
  have hr := reached_rep h
  obtain ⟨hc1, hs⟩ := store_ctr hc
  obtain ⟨a1, b1, s1, hc2, hs1, hrs, -, hws, -⟩ := hr.ctr (c := c) (by rw [hc1]; simp)
  rw [hc1] at hc2; cases hc2
  rw [hs] at hs1; cases hs1
  obtain ⟨y, hy, -⟩ := hr.it hx
  simp only [World.step, World.doCall, hws, World.hint, hy, Option.map_some, withAt_run (hrs rfl) f _ (fun _ => hn)]

/-- The same for `position`. -/
theorem C74_hint_position {w : World α} {u : SWorld α} (h : Reached w u) {c a : Nat} {s : St α}
    (hc : u.store c = some (a, true, s)) (hn : contents s ≠ []) {i : Nat} {x : SIt} (hx : u.its i = some x) (const : Bool)
    (pos ret : Nat) : w.step (.position c const pos (some i) ret) = w.step (.position c const pos none ret) := by
  have hr := reached_rep h
  obtain ⟨hc1, hs⟩ := store_ctr hc
  obtain ⟨a1, b1, s1, hc2, hs1, hrs, -, hws, -⟩ := hr.ctr (c := c) (by rw [hc1]; simp)
  rw [hc1] at hc2; cases hc2
  rw [hs] at hs1; cases hs1
  obtain ⟨y, hy, -⟩ := hr.it hx
  simp only [World.step, hws, World.hint, hy, Option.map_some, position_run (hrs rfl) _ (fun _ => hn)]

/-- The same for `transfer`. -/
theorem C74_hint_transfer {w : World α} {u : SWorld α} (h : Reached w u) {c a : Nat} {s : St α}
    (hc : u.store c = some (a, true, s)) (hn : contents s ≠ []) {i : Nat} {x : SIt} (hx : u.its i = some x)
    (d first last dest : Nat) (ret : Option Nat) :
    w.step (.transfer c d first last dest (some i) ret) = w.step (.transfer c d first last dest none ret) := by
  have hr := reached_rep h
  obtain ⟨hc1, hs⟩ := store_ctr hc
  obtain ⟨a1, b1, s1, hc2, hs1, hrs, -, hws, -⟩ := hr.ctr (c := c) (by rw [hc1]; simp)
  rw [hc1] at hc2; cases hc2
  rw [hs] at hs1; cases hs1
  obtain ⟨y, hy, -⟩ := hr.it hx
  simp only [World.step, hws, World.hint, hy, Option.map_some]
  cases w.store d with
  | none => rfl
  | some p => simp only [transfer_run (hrs rfl) _ (fun _ => hn)]

/-! ### Returned iterators -/

/-- The position whose block the returned iterator has to show; `none` when nothing is returned
or there was nothing to do. -/
def target (L : List (Cell α)) : Call α → Option Nat
  | .set _ pos _ _ | .release _ pos _ => some pos
  | .setRange _ pos _ vs | .insert _ pos _ vs => if vs.isEmpty then none else some pos
  | .insertEmpty _ pos n => if n = 0 then none else some pos
  | .setEmpty _ p _ | .releaseRange _ p _ => some p
  | .pushBack _ _ | .pushBackEmpty => some L.length
  | _ => none

theorem ret_points {s s' : St α} (hs : WF Weak s) {f : Call α} (hd : f.Defined (contents s)) {r : Ret α}
    (hr : f.run s = .ok (r, s')) {p : Nat} (ht : target (contents s) f = some p) :
    ∃ k, r.idx = some k ∧ pointsTo s' k p ∧ contents s' = f.after (contents s) := by
  have hc := call_spec_wf hs f hd
  split at hc
  · rename_i L' hL
    obtain ⟨r', s1, h1, -, h3, h2⟩ := hc
    rw [hr] at h1; cases h1
    have ha : contents s' = f.after (contents s) := by rw [h3, Call.after, hL]; rfl
    cases f <;> cases r <;> simp only [Call.RetOk, target, Option.some.injEq, reduceCtorEq] at h2 ht
    all_goals first
      | (subst ht; exact ⟨_, rfl, h2, ha⟩)
      | (subst ht; exact ⟨_, rfl, h2.1, ha⟩)
      | (split at ht
         · cases ht
         · rename_i hne
           cases ht
           rw [if_neg (by simpa using hne)] at h2
           exact ⟨_, rfl, h2, ha⟩)
  · rw [hr] at hc; cases hc

/-- The iterator a successful call returns shows a block that holds the position the call is about,
of the type of the cell that is now there. -/
theorem C74_returned {w : World α} {u : SWorld α} (h : Reached w u) {c : Nat} {f : Call α} {hint : Option Nat} (i : Nat)
    (hl : u.Legal (.call c f hint (some i))) {a : Nat} {s : St α} (hc : u.store c = some (a, true, s))
    (hsp : f.plain.spec (contents s) ≠ none) {p : Nat} (ht : target (contents s) f.plain = some p) :
    ∃ w' x n, w.run [.call c f hint (some i), .deref i] = .ok (w', [x, .info n]) ∧ n.pos ≤ p ∧ p < n.pos + n.size ∧
      n.ty = typeAt (f.plain.after (contents s)) p := by
  have hr := reached_rep h
  obtain ⟨hc1, hs⟩ := store_ctr hc
  obtain ⟨t, ht1, hrt⟩ := hr.live _ _ _ hc1
  rw [hs] at ht1; cases ht1
  have hrs := hrt rfl
  obtain ⟨a', s1, hst, hd, -⟩ := id hl
  rw [hc] at hst; cases hst
  have hcs := call_spec_wf hrs f.plain hd
  split at hcs
  · obtain ⟨r, s', hrun, -, -⟩ := hcs
    obtain ⟨k, hk, ⟨b, hb, hb1, hb2⟩, hcon⟩ := ret_points hrs hd hrun ht
    have hstep : ∃ u1 a2, u.step (.call c f hint (some i)) = (SWorld.setIt u1 i (place s' false false (some c) a2 k), r.ans) := by
      simp only [SWorld.step, SWorld.doCall, hc, hrun, hk]
      exact ⟨_, _, rfl⟩
    obtain ⟨u1, a2, hstep⟩ := hstep
    have hinfo : infoAt s' false k = some b.info := by simp [infoAt, blockAt, hb]
    have hget : (u1.setIt i (place s' false false (some c) a2 k)).its i = some (place s' false false (some c) a2 k) := put_same _ _ _
    obtain ⟨w', h1, -⟩ := run_ok [.call c f hint (some i), .deref i] hr
      ⟨hl, by rw [hstep]; exact ⟨⟨_, hget, by simp [place, hinfo]⟩, trivial⟩⟩
    refine ⟨w', r.ans, b.info, ?_, hb1, hb2, ?_⟩
    · rw [h1]
      have hstep2 : (u1.setIt i (place s' false false (some c) a2 k)).step (.deref i) =
          (u1.setIt i (place s' false false (some c) a2 k), .info b.info) := by
        have hseen : place s' false false (some c) a2 k = ⟨false, false, some c, some (a2, k), some b.info⟩ := by
          simp only [place, hinfo]
        rw [SWorld.step, hget]
        rw [hseen]
      simp only [SWorld.run, hstep, hstep2]
    · have hrs' : WF Weak s' := wf_call hrs f.plain hd hrun
      have hw := hrs'
      obtain ⟨hlt, -⟩ := List.getElem?_eq_some_iff.1 hb
      have e : s'.blocks = s'.blocks.take k ++ b :: s'.blocks.drop (k + 1) := by
        rw [← (List.getElem?_eq_some_iff.1 hb).2]; simp
      obtain ⟨-, -, hpos⟩ := ok_of_split hw e
      have hcell := cell_at hw e (a := p - b.pos) (by omega)
      rw [show total (s'.blocks.take k) + (p - b.pos) = p by omega, ← contents_eq, hcon] at hcell
      rcases hcell with ⟨hd1, hcell⟩ | ⟨d, v, hd1, -, hcell⟩
      · simp [typeAt, hcell, Blk.info, Blk.ty, hd1]
      · simp [typeAt, hcell, Blk.info, Blk.ty, hd1]
  · rename_i hns; exact absurd hns hsp

/-- In a well-formed container an empty block goes on as long as the cells are empty. -/
theorem empty_block {s : St α} (hw : WF Weak s) {k : Nat} {b : Blk α} (hb : s.blocks[k]? = some b) (hd : b.data = none)
    {p q : Nat} (hp : b.pos ≤ p ∧ p < b.pos + b.size) (he : ∀ r, p ≤ r → r ≤ q → (contents s)[r]? = some none) :
    q < b.pos + b.size := by
  by_contra hq
  have e : s.blocks = s.blocks.take k ++ b :: s.blocks.drop (k + 1) := by
    rw [← (List.getElem?_eq_some_iff.1 hb).2]; simp
  obtain ⟨-, -, hpos⟩ := ok_of_split hw e
  have hlt := (List.getElem?_eq_some_iff.1 hb).1
  have hr := he (b.pos + b.size) (by omega) (by omega)
  have hn : b.pos + b.size < total s.blocks := by
    have := (List.getElem?_eq_some_iff.1 hr).1
    rw [contents_eq, cells_length hw, hw.cur] at this
    exact this
  cases hb' : s.blocks[k + 1]? with
  | none =>
    rw [List.getElem?_eq_none_iff] at hb'
    have : s.blocks.drop (k + 1) = [] := List.drop_eq_nil_of_le hb'
    rw [e, this] at hn
    simp [total] at hn hpos
    omega
  | some b' =>
    have e' : s.blocks = s.blocks.take (k + 1) ++ b' :: s.blocks.drop (k + 2) := by
      rw [← (List.getElem?_eq_some_iff.1 hb').2]; simp
    obtain ⟨ok', -, hpos'⟩ := ok_of_split hw e'
    have htot : total (s.blocks.take (k + 1)) = b.pos + b.size := by
      rw [List.take_succ_eq_append_getElem hlt, (List.getElem?_eq_some_iff.1 hb).2]
      simp [total] at hpos ⊢
      omega
    have hc := cell_at hw e' (a := 0) ok'.1
    rw [Nat.add_zero, htot, ← contents_eq, hr] at hc
    rcases hc with ⟨hd', -⟩ | ⟨_, _, -, -, hc⟩
    · exact ((wf_weak s).1 hw).2 k b b' hb hb' ⟨by simp [Blk.ty, hd], by simp [Blk.ty, hd']⟩
    · cases hc

/-- The iterator `transfer` returns shows an empty block of the source that holds the whole range
handed over. -/
theorem C74_transfer {w : World α} {u : SWorld α} (h : Reached w u) {c d first last dest : Nat} {hint : Option Nat} (i : Nat)
    (hl : u.Legal (.transfer c d first last dest hint (some i))) {a b : Nat} {s t : St α}
    (hc : u.store c = some (a, true, s)) (hd : u.store d = some (b, true, t))
    (hin : first ≤ last ∧ last < (contents s).length ∧ dest + (last - first) < (contents t).length) :
    ∃ w' n, w.run [.transfer c d first last dest hint (some i), .deref i] = .ok (w', [.unit, .info n]) ∧ n.ty = none ∧
      n.pos ≤ first ∧ last < n.pos + n.size := by
  have hr := reached_rep h
  obtain ⟨hc1, hs⟩ := store_ctr hc
  obtain ⟨hd1, ht⟩ := store_ctr hd
  obtain ⟨s1, hs1, hws⟩ := hr.live _ _ _ hc1
  obtain ⟨t1, ht1, hwt⟩ := hr.live _ _ _ hd1
  rw [hs] at hs1; cases hs1
  rw [ht] at ht1; cases ht1
  have heff := transfer_eff weak_ne (hws rfl) (hwt rfl) none first last dest (fun e => absurd rfl e)
  have hm : moveCells first last dest (contents s) (contents t) =
      some ((contents s).take first ++ List.replicate (last - first + 1) none ++ (contents s).drop (last + 1),
        (contents t).take dest ++ ((contents s).drop first).take (last - first + 1) ++
          (contents t).drop (dest + (last - first + 1))) := by
    unfold moveCells
    rw [if_pos (by omega)]
  rw [hm] at heff
  obtain ⟨k, s', t', h1, h2, b1, hb1, hb2, hb3⟩ := heff
  have hcells : ∀ r, first ≤ r → r ≤ last → (contents s')[r]? = some none := by
    intro r hr1 hr2
    rw [h2.left]
    rw [List.append_assoc, List.getElem?_append_right (by simp; omega), List.getElem?_append_left (by simp; omega)]
    rw [List.getElem?_replicate]
    rw [if_pos (by simp; omega)]
  have hw := h2.wfs
  have e : s'.blocks = s'.blocks.take k ++ b1 :: s'.blocks.drop (k + 1) := by
    rw [← (List.getElem?_eq_some_iff.1 hb1).2]; simp
  obtain ⟨-, -, hpos⟩ := ok_of_split hw e
  have hdat : b1.data = none := by
    have hcell := cell_at hw e (a := first - b1.pos) (by omega)
    rw [show total (s'.blocks.take k) + (first - b1.pos) = first by omega, ← contents_eq, hcells first (by omega) hin.1] at hcell
    rcases hcell with ⟨hd, -⟩ | ⟨_, _, -, -, hcell⟩
    · exact hd
    · cases hcell
  have hlast := empty_block hw hb1 hdat ⟨hb2, hb3⟩ hcells
  let u1 := (u.renew c s').renew d t'
  have hinfo : place s' false false (some c) u.next k = ⟨false, false, some c, some (u.next, k), some b1.info⟩ := by
    simp [place, infoAt, blockAt, hb1]
  have hstep : u.step (.transfer c d first last dest hint (some i)) =
      (u1.setIt i ⟨false, false, some c, some (u.next, k), some b1.info⟩, .unit) := by
    simp only [SWorld.step, hc, hd, h1, hinfo]; rfl
  have hget : (u1.setIt i ⟨false, false, some c, some (u.next, k), some b1.info⟩).its i = _ := put_same _ _ _
  obtain ⟨w', h3, -⟩ := run_ok [.transfer c d first last dest hint (some i), .deref i] hr
    ⟨hl, by rw [hstep]; exact ⟨⟨_, hget, by simp⟩, trivial⟩⟩
  refine ⟨w', b1.info, ?_, by simp [Blk.info, Blk.ty, hdat], hb2, hlast⟩
  rw [h3]
  have hstep2 : (u1.setIt i ⟨false, false, some c, some (u.next, k), some b1.info⟩).step (.deref i) =
      (u1.setIt i ⟨false, false, some c, some (u.next, k), some b1.info⟩, .info b1.info) := by
    rw [SWorld.step, hget]
  simp only [SWorld.run, hstep, hstep2]

/-! ### Positions -/

/-- `next_position` of the position at `p` is the position at `p + 1`: `position(p)`, then
`next_position`, then `logical_position` with the offset it gave, for every cell but the last. -/
theorem C74_next {w : World α} {u : SWorld α} (h : Reached w u) {c a : Nat} {s : St α} (hc : u.store c = some (a, true, s))
    (const : Bool) (i : Nat) {p : Nat} (hp : p + 1 < (contents s).length) :
    ∃ w' off off', w.run [.position c const p none i, .logical i off, .next i off, .logical i off'] =
      .ok (w', [.num off, .num p, .num off', .num (p + 1)]) := by
  have hr := reached_rep h
  obtain ⟨hc1, hs⟩ := store_ctr hc
  obtain ⟨t, ht1, hrt⟩ := hr.live _ _ _ hc1
  rw [hs] at ht1; cases ht1
  have hrs := hrt rfl
  have hw := hrs
  have hcur : (contents s).length = s.cur := by rw [contents_eq]; exact cells_length hw
  obtain ⟨q, hpos, hdes⟩ := position_in (pos := p) hw none (by omega)
  obtain ⟨q', hnext, hdes'⟩ := next_ok hw hdes (by omega)
  obtain ⟨k, off⟩ := q
  obtain ⟨k', off'⟩ := q'
  rcases hdes with ⟨b, hb, h1, h2⟩ | ⟨-, h2⟩
  swap
  · omega
  rcases hdes' with ⟨b', hb', h1', h2'⟩ | ⟨-, h2'⟩
  swap
  · omega
  simp only at hb hb' h1 h1' h2 h2'
  have hn : (off + 1 < b.size ∧ k' = k ∧ off' = off + 1) ∨ (¬ off + 1 < b.size ∧ k' = k + 1 ∧ off' = 0) := by
    by_cases hlt : off + 1 < b.size
    · simp [nextPosition, bind_apply, getB_ap, hb, obind_ok, hlt] at hnext
      exact Or.inl ⟨hlt, hnext.1.symm, hnext.2.symm⟩
    · simp [nextPosition, bind_apply, getB_ap, hb, obind_ok, hlt] at hnext
      exact Or.inr ⟨hlt, hnext.1.symm, hnext.2.symm⟩
  -- the iterator, before and after
  have hinfo : place s false const (some c) a k = ⟨false, const, some c, some (a, k), some b.info⟩ := by
    simp [place, infoAt, blockAt, hb]
  have hinfo' : place s false const (some c) a k' = ⟨false, const, some c, some (a, k'), some b'.info⟩ := by
    simp [place, infoAt, blockAt, hb']
  let u1 := u.setIt i (place s false const (some c) a k)
  have hi1 : u1.its i = some ⟨false, const, some c, some (a, k), some b.info⟩ := by rw [← hinfo]; exact put_same _ _ _
  have hs1 : u1.stores a = some s := hs
  have st1 : u.step (.position c const p none i) = (u1, .num off) := by
    simp only [SWorld.step, hc, hpos]; rfl
  have st2 : u1.step (.logical i off) = (u1, .num p) := by
    simp only [SWorld.step, hi1, Blk.info, h2]
  obtain ⟨u2, st3, hi2⟩ : ∃ u2, u1.step (.next i off) = (u2, .num off') ∧
      u2.its i = some ⟨false, const, some c, some (a, k'), some b'.info⟩ := by
    rcases hn with ⟨hlt, rfl, rfl⟩ | ⟨hlt, rfl, rfl⟩
    · rw [hb] at hb'; cases hb'
      exact ⟨u1, by simp only [SWorld.step, hi1, Blk.info, hlt, if_true], hi1⟩
    · refine ⟨u1.setIt i (place s false const (some c) a (k + 1)), ?_, by rw [← hinfo']; exact put_same _ _ _⟩
      simp only [SWorld.step, hi1, Blk.info, hlt, if_false, SWorld.alive, hs1, Option.map_some]
  have st4 : u2.step (.logical i off') = (u2, .num (p + 1)) := by
    simp only [SWorld.step, hi2, Blk.info, h2']
  obtain ⟨w', hrun, -⟩ := run_ok [.position c const p none i, .logical i off, .next i off, .logical i off'] hr
    ⟨⟨a, s, hc, by intro j h; cases h⟩, by
      rw [st1]
      refine ⟨⟨_, hi1, rfl, by simp⟩, ?_⟩
      rw [st2]
      refine ⟨⟨_, _, hi1, rfl, rfl, Or.inr (by simp [SWorld.alive, hs1])⟩, ?_⟩
      rw [st3]
      exact ⟨⟨_, hi2, rfl, by simp⟩, trivial⟩⟩
  refine ⟨w', off, off', ?_⟩
  rw [hrun]
  simp only [SWorld.run, st1, st2, st3, st4]

/-! ### Kept iterators stay true -/

/-- Steps after which kept iterators stay true: no `push_back` and no container handed on. -/
def Cmd.quiet : Cmd α → Bool
  | .swap _ _ | .moveNew _ _ | .moveTo _ _ => false
  | .call _ (.pushBack _ _) _ _ => false
  | _ => true

/-- Every usable iterator shows its block as it is now and knows the container that has it. -/
def True_ (u : SWorld α) : Prop :=
  ∀ i x s a k, u.its i = some x → u.alive x = some (s, a, k) →
    x.seen = infoAt s x.rev k ∧ ∃ c b, u.ctrs c = some (a, b) ∧ x.owner = some c

omit [DecidableEq α] in
theorem infoAt_congr {s s' : St α} (h : s'.blocks.map Blk.info = s.blocks.map Blk.info) (rev : Bool) (k : Nat) :
    infoAt s' rev k = infoAt s rev k := by
  cases rev
  · simp only [infoAt, blockAt]; rw [← List.getElem?_map, ← List.getElem?_map, h]
  · cases k with
    | zero => rfl
    | succ k => simp only [infoAt, blockAt]; rw [← List.getElem?_map, ← List.getElem?_map, h]

omit [DecidableEq α] in
theorem alive_place {u : SWorld α} {s : St α} {a : Nat} (hs : u.stores a = some s) (rev const : Bool) (o : Option Nat) (k : Nat) :
    u.alive (place s rev const o a k) = some (s, a, k) := by simp [SWorld.alive, place, hs]

omit [DecidableEq α] in
theorem true_set {u : SWorld α} (h : True_ u) (i : Nat) {x : SIt}
    (hx : ∀ s a k, u.alive x = some (s, a, k) → x.seen = infoAt s x.rev k ∧ ∃ c b, u.ctrs c = some (a, b) ∧ x.owner = some c) :
    True_ (u.setIt i x) := by
  intro j y s a k hy hal
  rcases put_some hy with ⟨-, e⟩ | ⟨-, e⟩
  · cases e; exact hx s a k hal
  · exact h j y s a k e hal

omit [DecidableEq α] in
/-- Moving an iterator that is true. -/
theorem true_move {u : SWorld α} (h : True_ u) {i j : Nat} {x : SIt} (hi : u.its i = some x) {s : St α} {a k : Nat}
    (hal : u.alive x = some (s, a, k)) (const : Bool) (k' : Nat) : True_ (u.setIt j (place s x.rev const x.owner a k')) := by
  refine true_set h j fun s' a' k'' hal' => ?_
  rw [alive_place (alive_at hal).2] at hal'
  cases hal'
  exact ⟨rfl, (h i x s a k hi hal).2⟩

/-- Changing one container's store: iterators into other stores are untouched. -/
theorem true_call {w : World α} {u : SWorld α} (hr : Rep w u) (h : True_ u) {c : Nat} {f : Call α} {hint ret : Option Nat}
    (hl : u.Legal (.call c f hint ret)) (hq : (Cmd.call c f hint ret).quiet = true) : True_ (u.step (.call c f hint ret)).1 := by
  obtain ⟨a, s, hc, hd, -⟩ := hl
  obtain ⟨hc1, hs⟩ := store_ctr hc
  obtain ⟨t, ht, hrt⟩ := hr.live _ _ _ hc1
  rw [hs] at ht; cases ht
  have hrs := hrt rfl
  simp only [SWorld.step, SWorld.doCall, hc]
  cases hf : f.plain.run s with
  | ub => exact h
  | err e s' => exact h
  | ok p =>
    obtain ⟨r, s'⟩ := p
    simp only
    have key : ∀ u1 : SWorld α, ∀ a1, True_ u1 → u1.stores a1 = some s' → (∃ b, u1.ctrs c = some (a1, b)) →
        True_ (match ret, r.idx with
          | some i, some k => (u1.setIt i (place s' false false (some c) a1 k), r.ans)
          | _, _ => (u1, r.ans)).1 := by
      intro u1 a1 h1 h2 ⟨b, h3⟩
      cases ret with
      | none => exact h1
      | some i =>
        cases r.idx with
        | none => exact h1
        | some k =>
          refine true_set h1 i fun s2 a2 k2 hal => ?_
          rw [alive_place h2] at hal
          cases hal
          exact ⟨rfl, c, b, h3, rfl⟩
    by_cases hin : inPlace s f = true
    · have hsame : s'.blocks.map Blk.info = s.blocks.map Blk.info := by
        cases f <;> simp [inPlace] at hin
        · exact set_inPlace hrs hin hf
        · simp [Cmd.quiet] at hq
      simp only [hin, if_true]
      refine key _ a ?_ (put_same _ _ _) ⟨true, hc1⟩
      intro i x s2 a2 k2 hi hal
      obtain ⟨hat, hs2⟩ := alive_at hal
      rcases put_some hs2 with ⟨e1, e2⟩ | ⟨-, e2⟩
      · cases e2
        obtain ⟨h1, h2⟩ := h i x s a2 k2 hi (by rw [e1] at hat ⊢; simp [SWorld.alive, hat, hs])
        exact ⟨by rw [infoAt_congr hsame]; exact h1, h2⟩
      · exact h i x s2 a2 k2 hi (by simp [SWorld.alive, hat, e2])
    · simp only [hin, Bool.false_eq_true, if_false]
      refine key _ u.next ?_ (put_same _ _ _) ⟨true, put_same _ _ _⟩
      intro i x s2 a2 k2 hi hal
      obtain ⟨hat, hs2⟩ := alive_at hal
      obtain ⟨y, hy, hxy⟩ := hr.it hi
      have hlt := hxy.low a2 k2 hat
      replace hs2 := (put_other _ _ (by omega : a2 ≠ u.next)).symm.trans hs2
      rcases put_some hs2 with ⟨-, e2⟩ | ⟨hne, e2⟩
      · cases e2
      · obtain ⟨h1, d, b, h2, h3⟩ := h i x s2 a2 k2 hi (by simp [SWorld.alive, hat, e2])
        refine ⟨h1, d, b, ?_, h3⟩
        refine (put_other _ _ ?_).trans h2
        rintro rfl
        rw [hc1] at h2; cases h2; exact hne rfl

omit [DecidableEq α] in
/-- A container gets a new store: iterators into other stores are untouched. -/
theorem true_renew {w : World α} {u : SWorld α} (hr : Rep w u) (h : True_ u) {c a : Nat} {b : Bool} (hc : u.ctrs c = some (a, b))
    (s' : St α) : True_ (u.renew c s') := by
  simp only [SWorld.renew, hc]
  intro i x s2 a2 k2 hi hal
  obtain ⟨hat, hs2⟩ := alive_at hal
  obtain ⟨y, hy, hxy⟩ := hr.it hi
  have hlt := hxy.low a2 k2 hat
  replace hs2 := (put_other _ _ (by omega : a2 ≠ u.next)).symm.trans hs2
  rcases put_some hs2 with ⟨-, e2⟩ | ⟨hne, e2⟩
  · cases e2
  · obtain ⟨h1, d, b, h2, h3⟩ := h i x s2 a2 k2 hi (by simp [SWorld.alive, hat, e2])
    refine ⟨h1, d, b, ?_, h3⟩
    refine (put_other _ _ ?_).trans h2
    rintro rfl
    rw [hc] at h2; cases h2; exact hne rfl

omit [DecidableEq α] in
/-- Two containers get new stores. -/
theorem true_both {w : World α} {u : SWorld α} (hr : Rep w u) (h : True_ u) {c d a b : Nat} {s s' : St α} (hcd : c ≠ d)
    (hc : u.ctrs c = some (a, true)) (hs : u.stores a = some s) (hd : u.ctrs d = some (b, true)) (hs' : WF Weak s')
    (t' : St α) : True_ ((u.renew c s').renew d t') ∧ ∀ i k, True_ (((u.renew c s').renew d t').setIt i
      (place s' false false (some c) u.next k)) := by
  have h1 := true_renew hr h hc s'
  have hd1 : (u.renew c s').ctrs d = some (b, true) := by
    simp only [SWorld.renew, hc]; exact (put_other _ _ (Ne.symm hcd)).trans hd
  have h2 := true_renew (renew_ok hr hc hs hs').1 h1 hd1 t'
  refine ⟨h2, fun i k => true_set h2 i fun s2 a2 k2 hal => ?_⟩
  obtain ⟨hat, hs2⟩ := alive_at hal
  cases hat
  obtain ⟨t, ht, -⟩ := hr.live _ _ _ hd
  have hb := hr.low _ _ ht
  have hst : ((u.renew c s').renew d t').stores u.next = some s' := by
    simp only [SWorld.renew, hc, put_other _ _ (Ne.symm hcd), hd]
    exact (put_other _ _ (by omega)).trans ((put_other _ _ (by omega)).trans (put_same _ _ _))
  rw [hst] at hs2; cases hs2
  refine ⟨rfl, c, true, ?_, rfl⟩
  simp only [SWorld.renew, hc, put_other _ _ (Ne.symm hcd), hd]
  exact (put_other _ _ hcd).trans (put_same _ _ _)

theorem true_step {w : World α} {u : SWorld α} (hr : Rep w u) (h : True_ u) (c : Cmd α) (hl : u.Legal c) (hq : c.quiet = true) :
    True_ (u.step c).1 := by
  cases c with
  | swap c d => cases hq
  | moveNew c d => cases hq
  | moveTo c d => cases hq
  | call c f hint ret => exact true_call hr h hl hq
  | transfer c d first last dest hint ret =>
    obtain ⟨hcd, a, s, b, t, hsc, hsd, -⟩ := hl
    obtain ⟨hc, hs⟩ := store_ctr hsc
    obtain ⟨hd, ht⟩ := store_ctr hsd
    obtain ⟨s1, hs1, hws⟩ := hr.live _ _ _ hc
    obtain ⟨t1, ht1, hwt⟩ := hr.live _ _ _ hd
    rw [hs] at hs1; cases hs1
    rw [ht] at ht1; cases ht1
    have heff := transfer_eff weak_ne (hws rfl) (hwt rfl) none first last dest (fun e => absurd rfl e)
    simp only [SWorld.step, hsc, hsd]
    split at heff
    · obtain ⟨r, s', t', h1, h2, -⟩ := heff
      have := true_both hr h hcd hc hs hd h2.wfs t'
      rw [h1]
      cases ret with
      | none => exact this.1
      | some i => exact this.2 i r
    · rw [heff]; exact h
  | swapRange c d first last dest =>
    obtain ⟨hcd, a, s, b, t, hsc, hsd⟩ := hl
    obtain ⟨hc, hs⟩ := store_ctr hsc
    obtain ⟨hd, ht⟩ := store_ctr hsd
    obtain ⟨s1, hs1, hws⟩ := hr.live _ _ _ hc
    obtain ⟨t1, ht1, hwt⟩ := hr.live _ _ _ hd
    rw [hs] at hs1; cases hs1
    rw [ht] at ht1; cases ht1
    have heff := swap_eff weak_ne (hws rfl) (hwt rfl) first last dest
    simp only [SWorld.step, hsc, hsd]
    split at heff
    · obtain ⟨r, s', t', h1, h2⟩ := heff
      rw [h1]
      exact (true_both hr h hcd hc hs hd h2.wfs t').1
    · rw [heff]; exact h
  | make c k =>
    simp only [SWorld.step]
    cases hk : k.run with
    | ub => exact h
    | err e => exact h
    | ok s =>
      simp only
      intro i x s2 a2 k2 hi hal
      obtain ⟨hat, hs2⟩ := alive_at hal
      obtain ⟨y, hy, hxy⟩ := hr.it hi
      have hlt := hxy.low a2 k2 hat
      replace hs2 := (put_other _ _ (by omega : a2 ≠ u.next)).symm.trans hs2
      obtain ⟨h1, d, b, h2, h3⟩ := h i x s2 a2 k2 hi (by simp [SWorld.alive, hat, hs2])
      refine ⟨h1, d, b, (put_other _ _ ?_).trans h2, h3⟩
      rintro rfl
      rw [show u.ctrs d = none from hl] at h2; cases h2
  | destroy c =>
    simp only [SWorld.step]
    cases hc : u.ctrs c with
    | none => exact h
    | some p =>
      obtain ⟨a, b⟩ := p
      intro i x s2 a2 k2 hi hal
      obtain ⟨hat, hs2⟩ := alive_at hal
      rcases put_some hs2 with ⟨-, e2⟩ | ⟨hne, e2⟩
      · cases e2
      · obtain ⟨h1, d, b, h2, h3⟩ := h i x s2 a2 k2 hi (by simp [SWorld.alive, hat, e2])
        refine ⟨h1, d, b, (put_other _ _ ?_).trans h2, h3⟩
        rintro rfl
        rw [hc] at h2; cases h2; exact hne rfl
  | position c const pos hint ret =>
    obtain ⟨a, s, hc, -⟩ := hl
    obtain ⟨hc1, hs⟩ := store_ctr hc
    simp only [SWorld.step, hc]
    cases Mtv.position none pos s with
    | ub => exact h
    | err e s' => exact h
    | ok p =>
      refine true_set h ret fun s2 a2 k2 hal => ?_
      rw [alive_place hs] at hal
      cases hal
      exact ⟨rfl, c, true, hc1, rfl⟩
  | begin_ c rev const i =>
    obtain ⟨a, b, s, hc, hs, -, -, -, hus, -⟩ := hr.ctr hl
    simp only [SWorld.step, hus]
    refine true_set h i fun s2 a2 k2 hal => ?_
    rw [alive_place hs] at hal
    cases hal
    exact ⟨rfl, c, b, hc, rfl⟩
  | end_ c rev const i =>
    obtain ⟨a, b, s, hc, hs, -, -, -, hus, -⟩ := hr.ctr hl
    simp only [SWorld.step, hus]
    refine true_set h i fun s2 a2 k2 hal => ?_
    rw [alive_place hs] at hal
    cases hal
    exact ⟨rfl, c, b, hc, rfl⟩
  | fresh rev const i => exact true_set h i fun s2 a2 k2 hal => by simp [SWorld.alive] at hal
  | copy i j =>
    simp only [SWorld.step]
    cases hj : u.its j with
    | none => exact h
    | some x => exact true_set h i fun s2 a2 k2 hal => h j x s2 a2 k2 hj hal
  | convert i j =>
    obtain ⟨x, hx, -, hal⟩ := hl
    obtain ⟨s, a, k, hal⟩ := alive_some hal
    simp only [SWorld.step, hx, hal]
    exact true_move h hx hal true k
  | swapIt i j =>
    obtain ⟨x, y, hx, hy, -⟩ := hl
    simp only [SWorld.step, hx, hy]
    intro l z s2 a2 k2 hz hal
    rcases put_some hz with ⟨-, e⟩ | ⟨-, hz⟩
    · cases e; exact h i x s2 a2 k2 hx hal
    · rcases put_some hz with ⟨-, e⟩ | ⟨-, hz⟩
      · cases e; exact h j y s2 a2 k2 hy hal
      · exact h l z s2 a2 k2 hz hal
  | inc i =>
    obtain ⟨x, hx, hal, -⟩ := hl
    obtain ⟨s, a, k, hal⟩ := alive_some hal
    simp only [SWorld.step, hx, hal]
    exact true_move h hx hal x.const _
  | dec i =>
    obtain ⟨x, s, a, k, hx, hal, -⟩ := hl
    simp only [SWorld.step, hx, hal]
    exact true_move h hx hal x.const _
  | deref i => simp only [SWorld.step]; split <;> exact h
  | equal i j => simp only [SWorld.step]; split <;> exact h
  | logical i off => simp only [SWorld.step]; split <;> exact h
  | next i off =>
    obtain ⟨x, n, hx, -, hn, hor⟩ := hl
    simp only [SWorld.step, hx, hn]
    split
    · exact h
    · rename_i hoff
      obtain ⟨s, a, k, hal⟩ := alive_some (hor.resolve_left hoff)
      simp only [hal]
      exact true_move h hx hal x.const _

theorem true_run (cs : List (Cmd α)) : ∀ {w : World α} {u : SWorld α}, Rep w u → True_ u → u.LegalAll cs →
    (∀ c ∈ cs, c.quiet = true) → True_ (u.run cs).1 := by
  induction cs with
  | nil => intro w u _ h _ _; exact h
  | cons c cs ih =>
    intro w u hr h hl hq
    obtain ⟨w1, -, h2⟩ := step_ok hr c hl.1
    exact ih h2 (true_step hr h c hl.1 (hq c (by simp))) hl.2 (fun d hd => hq d (by simp [hd]))

/-- As long as no value is appended with `push_back` and no container is swapped or moved from,
an iterator that can still be used shows the block at its place as it is now.  Partial: with
those steps it may show an old size (`C74_push_back_fails`). -/
theorem C74_shows_partial (cs : List (Cmd α)) (hl : SWorld.empty.LegalAll cs) (hq : ∀ c ∈ cs, c.quiet = true) {w : World α}
    {xs : List (Ans α)} (hrun : World.empty.run cs = .ok (w, xs)) {i : Nat} {x : SIt} {s : St α} {a k : Nat}
    (hx : (SWorld.empty.run cs).1.its i = some x) (hal : (SWorld.empty.run cs).1.alive x = some (s, a, k)) {b : Blk α}
    (hb : blockAt s x.rev k = some b) : w.step (.deref i) = .ok (w, .info b.info) := by
  obtain ⟨w', h1, hr⟩ := run_ok cs rep_empty hl
  rw [hrun] at h1; cases h1
  have ht := true_run cs rep_empty (fun i x s a k h => by cases h) hl hq
  obtain ⟨h2, -⟩ := ht i x s a k hx hal
  obtain ⟨y, hy, hxy⟩ := hr.it hx
  have := hxy.seen b.info (by rw [h2, infoAt, hb]; rfl)
  simp only [World.step, hy, this]

/-- Under the same conditions two iterators of one kind that can be used on the same blocks are
equal exactly when they are at the same place.  Partial: false after a swap or `push_back`
(`C74_swap_fails`, `C74_push_back_fails`). -/
theorem C74_equal_partial (cs : List (Cmd α)) (hl : SWorld.empty.LegalAll cs) (hq : ∀ c ∈ cs, c.quiet = true) {w : World α}
    {xs : List (Ans α)} (hrun : World.empty.run cs = .ok (w, xs)) {i j : Nat} {x y : SIt} {s : St α} {a k k' : Nat}
    (hx : (SWorld.empty.run cs).1.its i = some x) (hal : (SWorld.empty.run cs).1.alive x = some (s, a, k))
    (hy : (SWorld.empty.run cs).1.its j = some y) (hal' : (SWorld.empty.run cs).1.alive y = some (s, a, k'))
    (hrev : x.rev = y.rev) (hconst : x.const = y.const) : w.step (.equal i j) = .ok (w, .bool (decide (k = k'))) := by
  obtain ⟨w', h1, hr⟩ := run_ok cs rep_empty hl
  rw [hrun] at h1; cases h1
  have ht := true_run cs rep_empty (fun i x s a k h => by cases h) hl hq
  obtain ⟨h2, c, bc, h3, h4⟩ := ht i x s a k hx hal
  obtain ⟨h2', d, bd, h3', h4'⟩ := ht j y s a k' hy hal'
  have hcd := hr.inj _ _ _ _ _ h3 h3'
  subst hcd
  obtain ⟨x', hx', hxy⟩ := hr.it hx
  obtain ⟨y', hy', hxy'⟩ := hr.it hy
  obtain ⟨hat, hs⟩ := alive_at hal
  obtain ⟨hat', -⟩ := alive_at hal'
  have hsame : x.same y = decide (k = k') := by
    simp only [SIt.same, hat, hat', Option.some.injEq, Prod.mk.injEq, true_and, h2, h2', h4, h4', hrev]
    by_cases hk : k = k'
    · simp [hk]
    · simp [hk]
  simp only [World.step, hx', hy', hxy.rev, hxy'.rev, hxy.const, hxy'.const, hrev, hconst, hxy.arr, hxy'.arr, hat, hat',
    Option.map_some, hr.arrays hxy hal, Option.isSome_some, and_self, if_true, eq_same hxy hxy' hrev hat hat' hs, hsame]

/-- `set` of a value of the type the cell already has keeps every block as it is: kept iterators
stay usable and true. -/
theorem C74_set_keeps {s s' : St α} (hs : Reachable s) {pos : Nat} {ty : Ty} {x : α} {i : Nat}
    (ht : typeAt (contents s) pos = some ty) (hr : Mtv.set none pos ty x s = .ok (i, s')) :
    s'.blocks.map Blk.info = s.blocks.map Blk.info :=
  set_inPlace (reachable_wf hs) (x := x) (r := .iter i) ht (by simp only [Call.run, bind_apply, hr, obind_ok]; rfl)

/-- `push_back` of a value of the last block's type changes only the size of the last block. -/
theorem C74_push_back_keeps {s s' : St α} {ty : Ty} {x : α} {i : Nat} (ht : s.blocks.getLast?.bind Blk.ty = some ty)
    (hr : Mtv.pushBack ty x s = .ok (i, s')) :
    ∃ pre b, s.blocks.map Blk.info = pre ++ [b] ∧ s'.blocks.map Blk.info = pre ++ [{ b with size := b.size + 1 }] :=
  push_inPlace (x := x) (r := .iter i) ht (by simp only [Call.run, bind_apply, hr, obind_ok]; rfl)

/-! ### Concrete programs -/

/-- A container `0` with the blocks `int × 2, string, int × 2`. -/
def build : List (Cmd Nat) := [.make 0 (.range 5 tI [1, 2, 3, 4, 5]), .call 0 (.set none 2 tS 9) none (some 0)]

/-- The two iterators kept: `1` at the string block, `2` at the last block. -/
def walkTwo : List (Cmd Nat) := [.begin_ 0 false false 1, .inc 1, .copy 2 1, .inc 2]

theorem plain_defined (L : List (Cell Nat)) (pos : Nat) (ty : Ty) (x : Nat) : (Call.set none pos ty x).plain.Defined L :=
  ⟨fun h => absurd rfl h, trivial⟩

theorem push_defined (L : List (Cell Nat)) (ty : Ty) (x : Nat) : (Call.pushBack ty x).plain.Defined L :=
  ⟨fun h => absurd rfl h, trivial⟩

omit [DecidableEq α] in
theorem legalAll_append {u : SWorld α} {cs ds : List (Cmd α)} (h : u.LegalAll cs) (h' : (u.run cs).1.LegalAll ds) :
    u.LegalAll (cs ++ ds) := by
  induction cs generalizing u with
  | nil => exact h'
  | cons c cs ih => exact ⟨h.1, ih h.2 h'⟩

theorem walkTwo_legal : (SWorld.empty (α := Nat)).LegalAll (build ++ walkTwo) :=
  ⟨rfl, ⟨_, _, rfl, plain_defined _ _ _ _, by intro i h; cases h⟩, by simp only [SWorld.Legal]; decide +kernel,
    ⟨_, rfl, by decide +kernel, by decide +kernel⟩, by simp only [SWorld.Legal]; decide +kernel,
    ⟨_, rfl, by decide +kernel, by decide +kernel⟩, trivial⟩

/-- What the program shows, with a `set` in place in between. -/
def showTwo : List (Cmd Nat) :=
  build ++ walkTwo ++ [.call 0 (.set none 2 tS 8) (some 2) (some 3), .deref 1, .deref 2, .deref 3, .equal 1 3, .equal 1 2, .dec 2, .equal 1 2]

theorem showTwo_legal : (SWorld.empty (α := Nat)).LegalAll showTwo := by
  refine legalAll_append walkTwo_legal ?_
  refine ⟨⟨_, _, rfl, plain_defined _ _ _ _, ?_⟩, ⟨_, rfl, ?_⟩, ⟨_, rfl, ?_⟩, ⟨_, rfl, ?_⟩, ⟨_, _, rfl, rfl, rfl, rfl, ?_, ?_⟩,
    ⟨_, _, rfl, rfl, rfl, rfl, ?_, ?_⟩, ⟨_, _, _, _, rfl, rfl, ?_⟩, ⟨_, _, rfl, rfl, rfl, rfl, ?_, ?_⟩, trivial⟩
  · intro i h; cases h
    exact ⟨⟨_, rfl, rfl⟩, by decide +kernel⟩
  all_goals decide +kernel

/-- A legal program with kept iterators, a call in place and a hint. -/
example : answers (World.empty.run showTwo) = some [.unit, .unit, .unit, .unit, .unit, .unit, .unit,
    .info ⟨some tS, 2, 1, some 2⟩, .info ⟨some tI, 3, 2, some 0⟩, .info ⟨some tS, 2, 1, some 2⟩, .bool true, .bool false, .unit, .bool true] := by
  rw [C74_programs_partial _ showTwo_legal]; decide +kernel

theorem showTwo_reached : ∃ w, Reached w (SWorld.empty.run showTwo).1 := by
  obtain ⟨w', h, -⟩ := run_ok showTwo rep_empty showTwo_legal
  exact ⟨w', showTwo, _, showTwo_legal, h, rfl⟩

/-- The loop over three blocks, backwards. -/
example : ∃ w s a, Reached w (SWorld.empty.run showTwo).1 ∧ (SWorld.empty.run showTwo).1.store 0 = some (a, true, s) ∧
    shown (α := Nat) ((if true then s.blocks.reverse else s.blocks).map Blk.info) =
      [.bool false, .info ⟨some tI, 3, 2, some 0⟩, .unit, .bool false, .info ⟨some tS, 2, 1, some 2⟩, .unit,
       .bool false, .info ⟨some tI, 0, 2, some 1⟩, .unit, .bool true] := by
  obtain ⟨w, h⟩ := showTwo_reached
  exact ⟨w, _, _, h, rfl, by decide +kernel⟩

/-- A hint that is not at the place of the call. -/
example : ∃ w s a x, Reached w (SWorld.empty.run showTwo).1 ∧ (SWorld.empty.run showTwo).1.store 0 = some (a, true, s) ∧
    contents s ≠ [] ∧ (SWorld.empty.run showTwo).1.its 1 = some x ∧ x.seen = some ⟨some tS, 2, 1, some 2⟩ := by
  obtain ⟨w, h⟩ := showTwo_reached
  exact ⟨w, _, _, _, h, rfl, by decide +kernel, rfl, by decide +kernel⟩

/-- A call that splits a block and returns the new block. -/
example : ∃ w s a, Reached w (SWorld.empty.run showTwo).1 ∧ (SWorld.empty.run showTwo).1.store 0 = some (a, true, s) ∧
    (SWorld.empty.run showTwo).1.Legal (.call 0 (.set none 4 tS 7) none (some 5)) ∧
    (Call.set none 4 tS 7).plain.spec (contents s) ≠ none ∧ target (contents s) (Call.set none 4 tS 7).plain = some 4 := by
  obtain ⟨w, h⟩ := showTwo_reached
  refine ⟨w, _, _, h, rfl, ⟨_, _, rfl, plain_defined _ _ _ _, by intro i h; cases h⟩, by decide +kernel, rfl⟩

/-- The position before a block boundary. -/
example : ∃ w s a, Reached w (SWorld.empty.run showTwo).1 ∧ (SWorld.empty.run showTwo).1.store 0 = some (a, true, s) ∧
    1 + 1 < (contents s).length ∧ typeAt (contents s) 1 = some tI ∧ typeAt (contents s) 2 = some tS := by
  obtain ⟨w, h⟩ := showTwo_reached
  exact ⟨w, _, _, h, rfl, by decide +kernel, by decide +kernel, by decide +kernel⟩

/-- A quiet program with two usable iterators at different places. -/
example : (SWorld.empty (α := Nat)).LegalAll showTwo ∧ (∀ c ∈ showTwo, c.quiet = true) ∧
    ∃ x y s a, (SWorld.empty.run showTwo).1.its 1 = some x ∧ (SWorld.empty.run showTwo).1.alive x = some (s, a, 1) ∧
      (SWorld.empty.run showTwo).1.its 3 = some y ∧ (SWorld.empty.run showTwo).1.alive y = some (s, a, 1) ∧
      blockAt s x.rev 1 = some ⟨2, 1, some ⟨2, tS, [8]⟩⟩ := by
  refine ⟨showTwo_legal, ?_, _, _, _, _, rfl, rfl, rfl, rfl, by decide +kernel⟩
  intro c hc
  simp only [showTwo, build, walkTwo, List.cons_append, List.nil_append, List.mem_cons, List.not_mem_nil, or_false] at hc
  rcases hc with rfl | rfl | rfl | rfl | rfl | rfl | rfl | rfl | rfl | rfl | rfl | rfl | rfl | rfl <;> rfl

example : typeAt (contents demo) 3 = some tS ∧ ∃ i s', Mtv.set none 3 tS 8 demo = .ok (i, s') :=
  ⟨by decide +kernel, _, _, rfl⟩

example : demo.blocks.getLast?.bind Blk.ty = some tI ∧ ∃ i s', Mtv.pushBack tI 8 demo = .ok (i, s') :=
  ⟨by decide +kernel, _, _, rfl⟩

/-- `0` hands its cells 1 to 3 to `1`, with an iterator of `1` as the hint; an iterator of `2` is kept. -/
def giveCells : List (Cmd Nat) :=
  build ++ [.make 1 (.sized 4), .make 2 (.range 2 tS [7, 8]), .begin_ 2 false false 8, .begin_ 1 false false 9]

theorem giveCells_legal : (SWorld.empty (α := Nat)).LegalAll giveCells :=
  ⟨rfl, ⟨_, _, rfl, plain_defined _ _ _ _, by intro i h; cases h⟩, rfl, rfl, by simp only [SWorld.Legal]; decide +kernel,
    by simp only [SWorld.Legal]; decide +kernel, trivial⟩

theorem giveCells_reached : ∃ w, Reached w (SWorld.empty.run giveCells).1 := by
  obtain ⟨w', h, -⟩ := run_ok giveCells rep_empty giveCells_legal
  exact ⟨w', giveCells, _, giveCells_legal, h, rfl⟩

/-- A `transfer` over several blocks with a hint of another container. -/
example : ∃ w s a t b, Reached w (SWorld.empty.run giveCells).1 ∧
    (SWorld.empty.run giveCells).1.Legal (.transfer 0 1 1 3 1 (some 9) (some 5)) ∧
    (SWorld.empty.run giveCells).1.store 0 = some (a, true, s) ∧ (SWorld.empty.run giveCells).1.store 1 = some (b, true, t) ∧
    (1 ≤ 3 ∧ 3 < (contents s).length ∧ 1 + (3 - 1) < (contents t).length) := by
  obtain ⟨w, h⟩ := giveCells_reached
  refine ⟨w, _, _, _, _, h, ⟨by decide, _, _, _, _, rfl, rfl, ?_⟩, rfl, rfl, by decide +kernel⟩
  intro i h; cases h
  exact ⟨⟨_, rfl, rfl⟩, by decide +kernel⟩

/-- The rest of the program: `transfer`, then a range `swap` with `2`, then looking at everything kept;
the iterator of `1` cannot be moved any more but still shows its old block. -/
def giveOn : List (Cmd Nat) :=
  [.transfer 0 1 1 3 1 (some 9) (some 5), .deref 5, .inc 5, .deref 5, .deref 8, .deref 9, .swapRange 1 0 2 3 3,
    .position 1 false 2 none 6, .deref 6, .transfer 0 1 4 9 0 none none]

example : (answers (World.empty.run (giveCells ++ giveOn))).map (·.drop 6) =
    some [.unit, .info ⟨none, 1, 3, none⟩, .unit, .info ⟨some tI, 4, 1, some 0⟩, .info ⟨some tS, 0, 2, some 0⟩,
      .info ⟨none, 0, 4, none⟩, .unit, .num 0, .info ⟨none, 2, 1, none⟩, .threw .outOfRange] := by
  decide +kernel

/-! ### Findings -/

/-- An iterator of `0`, kept while `0` and `1` change places, against a new one at the same block. -/
def swapped : List (Cmd Nat) :=
  build ++ [.make 1 .default, .begin_ 0 false false 1, .swap 0 1, .begin_ 1 false false 2, .deref 1, .deref 2, .equal 1 2]

/-- After `c.swap(d)` the iterators go with the blocks, but an iterator got before the swap is not
equal to one got after it at the same block, although both show the same block. -/
theorem C74_swap_fails :
    ∃ cs : List (Cmd Nat), SWorld.empty.LegalAll cs ∧ ∃ n xs, answers (World.empty.run cs) = some xs ∧
      xs.drop 6 = [.info n, .info n, .bool false] := by
  refine ⟨swapped, ⟨rfl, ⟨_, _, rfl, plain_defined _ _ _ _, by intro i h; cases h⟩, rfl, ?_, ⟨?_, ?_⟩, ?_, ⟨_, rfl, ?_⟩, ⟨_, rfl, ?_⟩,
      ⟨_, _, rfl, rfl, rfl, rfl, rfl, ?_⟩, trivial⟩, ⟨some tI, 0, 2, some 1⟩, _, rfl, ?_⟩
  all_goals first | decide +kernel | (simp only [SWorld.Legal]; decide +kernel)

/-- A `push_back` in place, then the kept iterator at the last block against the returned one. -/
def pushed : List (Cmd Nat) := [.call 0 (.pushBack tI 6) none (some 3), .deref 2, .deref 3, .equal 2 3]

/-- After `push_back` of a value of the last block's type, an iterator at the last block got before
shows the old size and is not equal to one got after it at the same block; nothing was moved in
memory, so the iterator is otherwise usable. -/
theorem C74_push_back_fails :
    ∃ cs : List (Cmd Nat), SWorld.empty.LegalAll cs ∧ ∃ xs, answers (World.empty.run cs) = some xs ∧
      xs.drop 7 = [.info ⟨some tI, 3, 2, some 0⟩, .info ⟨some tI, 3, 3, some 0⟩, .bool false] := by
  refine ⟨build ++ walkTwo ++ pushed,
    legalAll_append walkTwo_legal ⟨⟨_, _, rfl, push_defined _ _ _, by intro i h; cases h⟩, ⟨_, rfl, ?_⟩, ⟨_, rfl, ?_⟩,
      ⟨_, _, rfl, rfl, rfl, rfl, ?_, ?_⟩, trivial⟩, _, rfl, ?_⟩
  all_goals decide +kernel

end Mdds.Mtv.Iter
