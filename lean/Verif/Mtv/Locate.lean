import Verif.Mtv.Eval
/-!
Block lookup: `get_block_position`, with and without a position hint, finds the
block containing a logical position.
-/
namespace Mdds.Mtv
open Mdds

variable {α : Type}

/-- Every position below the total lies in exactly one block. -/
theorem locate : ∀ {bs : List (Blk α)} {row : Nat}, row < total bs →
    ∃ pre b post, bs = pre ++ b :: post ∧ total pre ≤ row ∧ row < total pre + b.size
  | [], row, h => by simp at h
  | b :: bs, row, h => by
    by_cases hb : row < b.size
    · exact ⟨[], b, bs, rfl, by simp, by simpa using hb⟩
    · obtain ⟨pre, b', post, e, h1, h2⟩ := locate (bs := bs) (row := row - b.size) (by simp at h; omega)
      refine ⟨b :: pre, b', post, by simp [e], ?_, ?_⟩ <;> simp <;> omega

theorem tile_pos_lt : ∀ {bs : List (Blk α)} {p : Nat}, Tile p bs → ∀ b ∈ bs, b.pos < p + total bs
  | [], _, _, _, hb => by simp at hb
  | c :: bs, p, h, b, hb => by
    obtain ⟨h1, h2, h3⟩ := h
    rcases List.mem_cons.1 hb with rfl | hb
    · have := h2.1; simp; omega
    · have := tile_pos_lt h3 b hb; simp; omega

theorem tile_pos_ge : ∀ {bs : List (Blk α)} {p : Nat}, Tile p bs → ∀ b ∈ bs, p ≤ b.pos
  | [], _, _, _, hb => by simp at hb
  | c :: bs, p, h, b, hb => by
    obtain ⟨h1, h2, h3⟩ := h
    rcases List.mem_cons.1 hb with rfl | hb
    · omega
    · have := tile_pos_ge h3 b hb; omega

theorem findIdx_pre {τ : Type} (f : τ → Bool) (pre l : List τ) (h : ∀ x ∈ pre, f x = false) :
    (pre ++ l).findIdx f = pre.length + l.findIdx f := by
  induction pre with
  | nil => simp
  | cons a pre ih =>
    simp only [List.cons_append, List.findIdx_cons, h a (by simp), List.length_cons, cond_false]
    rw [ih (fun x hx => h x (by simp [hx]))]; omega

theorem lowerBound_decomp {pre post : List (Blk α)} {b : Blk α} {p row : Nat}
    (h : Tile p (pre ++ b :: post)) (h1 : p + total pre ≤ row) (h2 : row < p + total pre + b.size) :
    lowerBound (pre ++ b :: post) row = if b.pos = row then pre.length else pre.length + 1 := by
  simp only [tile_append, tile_cons] at h
  obtain ⟨ha, hb, hc, hd⟩ := h
  unfold lowerBound
  have hpre : ∀ x ∈ pre, decide (row ≤ x.pos) = false := by
    intro x hx
    have := tile_pos_lt ha x hx
    simp; omega
  rw [findIdx_pre _ _ _ hpre, List.findIdx_cons]
  by_cases hr : b.pos = row
  · simp [hr]
  · rw [if_neg hr]
    have : decide (row ≤ b.pos) = false := by simp; omega
    rw [this]
    cases post with
    | nil => simp
    | cons d post =>
      simp only [cond_false, List.findIdx_cons]
      have : decide (row ≤ d.pos) = true := by simp [hd.1]; omega
      simp [this]

/-- Lookup of a position lying in the block after `pre`. -/
theorem getBlockPosition_ok {pre post : List (Blk α)} {b : Blk α} {row start : Nat} {s : St α}
    (e : s.blocks = pre ++ b :: post) (h : Tile 0 s.blocks) (hc : s.cur = total s.blocks)
    (h1 : total pre ≤ row) (h2 : row < total pre + b.size) (hs : start ≤ pre.length) :
    getBlockPosition row start s = .ok (pre.length, s) := by
  have hcur : ¬ s.cur ≤ row := by rw [hc, e]; simp; omega
  have hst : ¬ (s.blocks.length ≤ start) := by rw [e]; simp; omega
  have hd : s.blocks.drop start = pre.drop start ++ b :: post := by
    rw [e, List.drop_append_of_le_length hs]
  have hpre : pre = pre.take start ++ pre.drop start := (List.take_append_drop _ _).symm
  have ht : Tile (total (pre.take start)) (pre.drop start ++ b :: post) := by
    rw [e, hpre, List.append_assoc, tile_append] at h
    simpa using h.2
  have htot : total pre = total (pre.take start) + total (pre.drop start) := by
    rw [← total_append, List.take_append_drop]
  have hlb := lowerBound_decomp ht (row := row) (by omega) (by omega)
  have hlen : (pre.drop start).length = pre.length - start := by simp
  simp only [getBlockPosition, bind_apply, curSize_ap, nBlocks_ap, obind_ok, ge_iff_le]
  rw [if_neg (by simp [hcur, hst])]
  unfold searchFrom
  simp only [hd, hlb]
  by_cases hp : b.pos = row
  · simp [hp]; omega
  · simp only [hp, if_false]
    cases post with
    | nil => simp; omega
    | cons d post =>
      have hdp : d.pos ≠ row := by
        rw [tile_append] at ht
        have := ht.2.2.2.1
        omega
      simp [hdp]; omega

theorem getBlockPosition_end {row start : Nat} {s : St α} (hr : s.cur ≤ row) :
    getBlockPosition row start s = .ok (s.blocks.length, s) := by
  simp only [getBlockPosition, bind_apply, curSize_ap, nBlocks_ap, obind_ok, ge_iff_le]
  rw [if_pos (Or.inl hr)]; rfl

theorem walkBack_ok {pre post : List (Blk α)} {b : Blk α} {row : Nat} {s : St α}
    (e : s.blocks = pre ++ b :: post) (h : Tile 0 s.blocks)
    (h1 : total pre ≤ row) (h2 : row < total pre + b.size) :
    ∀ i, pre.length < i → i ≤ s.blocks.length → walkBack row i s = .ok (some pre.length, s)
  | 0, h, _ => by omega
  | i + 1, hlt, hle => by
    have ht := h
    rw [e] at ht
    simp only [tile_append, tile_cons, Nat.zero_add] at ht
    obtain ⟨ha, hb, hc, hd⟩ := ht
    by_cases hi : i = pre.length
    · subst hi
      simp [walkBack, getB_ap, e, hb, h1]
    · have hget : ∃ x, s.blocks[i]? = some x ∧ x ∈ post := by
        have : i = pre.length + ((i - pre.length - 1) + 1) := by omega
        rw [e, this, get_pre, List.getElem?_cons_succ]
        have hl : i - pre.length - 1 < post.length := by
          rw [e] at hle; simp at hle; omega
        exact ⟨_, List.getElem?_eq_getElem hl, List.getElem_mem _⟩
      obtain ⟨x, hx, hxm⟩ := hget
      have hge := tile_pos_ge hd x hxm
      have hn : ¬ x.pos ≤ row := by omega
      simp only [walkBack, bind_apply, getB_ap, hx, obind_ok, ge_iff_le, hn, if_false]
      exact walkBack_ok e h h1 h2 i (by omega) (by omega)

/-- The hint only speeds the lookup up. -/
theorem getBlockPositionHint_ok {pre post : List (Blk α)} {b : Blk α} {row : Nat} {s : St α} (hint : Option Nat)
    (e : s.blocks = pre ++ b :: post) (h : Tile 0 s.blocks) (hc : s.cur = total s.blocks)
    (h1 : total pre ≤ row) (h2 : row < total pre + b.size) :
    getBlockPositionHint hint row s = .ok (pre.length, s) := by
  have key : ∀ bi, bi < s.blocks.length →
      ((getB bi >>= fun b => if row < b.pos then
          if row > b.pos / 2 then do
            let r ← walkBack row bi
            match r with
            | some i => M.pure i
            | none => getBlockPosition row 0
          else getBlockPosition row 0
        else getBlockPosition row bi : M α Nat)) s = .ok (pre.length, s) := by
    intro bi hbi
    have hx : s.blocks[bi]? = some s.blocks[bi] := List.getElem?_eq_getElem hbi
    simp only [bind_apply, getB_ap, hx, obind_ok]
    have ht := h
    rw [e] at ht
    simp only [tile_append, tile_cons, Nat.zero_add] at ht
    obtain ⟨ha, hb, hc', hd⟩ := ht
    by_cases hlt : row < s.blocks[bi].pos
    · have hgt : pre.length < bi := by
        by_contra hle
        rcases Nat.lt_or_ge bi pre.length with hl | hl
        · have hm : s.blocks[bi] ∈ pre := by
            simp only [e, List.getElem_append_left hl]; exact List.getElem_mem _
          have := tile_pos_lt ha _ hm
          omega
        · have : bi = pre.length := by omega
          subst this
          have : s.blocks[pre.length] = b := by simp [e]
          rw [this] at hlt; omega
      rw [if_pos hlt]
      split
      · simp only [bind_apply, walkBack_ok e h h1 h2 bi hgt (by omega), obind_ok]; rfl
      · exact getBlockPosition_ok e h hc h1 h2 (by omega)
    · rw [if_neg hlt]
      have hle : bi ≤ pre.length := by
        by_contra hgt
        have hm : s.blocks[bi] ∈ post := by
          have hh : s.blocks[bi]? = some s.blocks[bi] := hx
          have : bi = pre.length + ((bi - pre.length - 1) + 1) := by omega
          conv at hh => lhs; rw [e, this, get_pre, List.getElem?_cons_succ]
          exact List.mem_of_getElem? hh
        have := tile_pos_ge hd _ hm
        omega
      exact getBlockPosition_ok e h hc h1 h2 hle
  have hpos : 0 < s.blocks.length := by rw [e]; simp; omega
  simp only [getBlockPositionHint]
  rw [bind_apply]
  simp only [nBlocks_ap, obind_ok]
  cases hint with
  | none => exact key 0 hpos
  | some hh =>
    by_cases hl : hh < s.blocks.length
    · simp only [hl, if_true]; exact key hh hl
    · simp only [hl, if_false]; exact key 0 hpos

theorem getBlockPositionHint_end {row : Nat} {s : St α} (hint : Option Nat) (hne : s.blocks ≠ [])
    (h : Tile 0 s.blocks) (hc : s.cur = total s.blocks) (hr : s.cur ≤ row) :
    getBlockPositionHint hint row s = .ok (s.blocks.length, s) := by
  have key : ∀ bi, bi < s.blocks.length →
      ((getB bi >>= fun b => if row < b.pos then
          if row > b.pos / 2 then do
            let r ← walkBack row bi
            match r with
            | some i => M.pure i
            | none => getBlockPosition row 0
          else getBlockPosition row 0
        else getBlockPosition row bi : M α Nat)) s = .ok (s.blocks.length, s) := by
    intro bi hbi
    have hx : s.blocks[bi]? = some s.blocks[bi] := List.getElem?_eq_getElem hbi
    simp only [bind_apply, getB_ap, hx, obind_ok]
    have := tile_pos_lt h s.blocks[bi] (List.getElem_mem _)
    rw [if_neg (by omega)]
    exact getBlockPosition_end hr
  have hpos : 0 < s.blocks.length := List.length_pos_iff.2 hne
  simp only [getBlockPositionHint]
  rw [bind_apply]
  simp only [nBlocks_ap, obind_ok]
  cases hint with
  | none => exact key 0 hpos
  | some hh =>
    by_cases hl : hh < s.blocks.length
    · simp only [hl, if_true]; exact key hh hl
    · simp only [hl, if_false]; exact key 0 hpos

end Mdds.Mtv
