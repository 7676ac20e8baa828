import Verif.Mtv.History

/-!
# multi_type_vector: reading, positions and comparison
-/

namespace Mdds.Mtv

set_option linter.unusedSectionVars false

variable {α : Type} [DecidableEq α]

/-! ### The structural invariant in terms of block indices -/

theorem tile_iff (bs : List (Blk α)) : ∀ p, Tile p bs ↔
    ∀ i b, bs[i]? = some b → b.pos = p + total (bs.take i) ∧ b.ok := by
  induction bs with
  | nil => intro p; simp
  | cons c l ih =>
    intro p
    rw [tile_cons, ih]
    constructor
    · rintro ⟨h1, h2, h3⟩ i b hb
      rcases i with _ | i
      · simp at hb; subst hb; exact ⟨by simp [h1], h2⟩
      · simp at hb
        have := h3 i b hb
        refine ⟨?_, this.2⟩
        simp only [List.take_succ_cons, total_cons]
        omega
    · intro h
      have h0 := h 0 c (by simp)
      refine ⟨by simpa using h0.1, h0.2, fun i b hb => ?_⟩
      have := h (i + 1) b (by simpa using hb)
      refine ⟨?_, this.2⟩
      simp only [List.take_succ_cons, total_cons] at this
      omega

theorem tiled_iff (s : St α) : Tiled s ↔ Tile 0 s.blocks ∧ s.cur = total s.blocks := by
  rw [tile_iff]
  unfold Tiled Blk.ok total
  simp only [Nat.zero_add]
  rfl

theorem sep_iff (S : Option Ty → Prop) (bs : List (Blk α)) : Sep S bs ↔
    ∀ i a b, bs[i]? = some a → bs[i + 1]? = some b → a.ty = b.ty → S a.ty := by
  induction bs with
  | nil => simp
  | cons c l ih =>
    rcases l with _ | ⟨d, l⟩
    · simp
    · unfold Sep at ih ⊢
      rw [List.map_cons, List.map_cons, List.isChain_cons_cons, ← List.map_cons, ih]
      constructor
      · rintro ⟨h1, h2⟩ i a b ha hb
        rcases i with _ | i
        · simp at ha hb; subst ha hb; exact h1
        · simp at ha hb; exact h2 i a b ha (by simpa using hb)
      · intro h
        exact ⟨h 0 c d (by simp) (by simp), fun i a b ha hb => h (i + 1) a b (by simpa using ha) (by simpa using hb)⟩

theorem wf_canon (s : St α) : WF (fun _ => False) s ↔ Tiled s ∧ Canonical s := by
  rw [tiled_iff]
  constructor
  · rintro ⟨h1, h2, h3⟩
    exact ⟨⟨h1, h2⟩, fun i a b ha hb hab => (sep_iff _ _).1 h3 i a b ha hb hab⟩
  · rintro ⟨⟨h1, h2⟩, h3⟩
    exact ⟨h1, h2, (sep_iff _ _).2 fun i a b ha hb hab => h3 i a b ha hb hab⟩

theorem wf_weak (s : St α) : WF (fun o => o ≠ none) s ↔ Tiled s ∧ NoEmptyPair s := by
  rw [tiled_iff]
  constructor
  · rintro ⟨h1, h2, h3⟩
    exact ⟨⟨h1, h2⟩, fun i a b ha hb hab => (sep_iff _ _).1 h3 i a b ha hb (hab.1.trans hab.2.symm) hab.1⟩
  · rintro ⟨⟨h1, h2⟩, h3⟩
    exact ⟨h1, h2, (sep_iff _ _).2 fun i a b ha hb hab hn => h3 i a b ha hb ⟨hn, hab ▸ hn⟩⟩

theorem wf_weaken {s : St α} (h : WF (fun _ => False) s) : WF (fun o => o ≠ none) s :=
  ⟨h.tile, h.cur, (sep_iff _ _).2 fun i a b ha hb hab => ((sep_iff _ _).1 h.sep i a b ha hb hab).elim⟩

/-! ### Reads -/

theorem get_in {S : Option Ty → Prop} {s : St α} (h : WF S s) {pos : Nat} (hp : pos < s.cur) (ty : Ty)
    (ht : tyAt (cells s.blocks) pos = none ∨ tyAt (cells s.blocks) pos = some ty) :
    ∃ v, get pos ty s = .ok (v, s) ∧ (cells s.blocks)[pos]? = some (v.map fun x => (ty, x)) := by
  obtain ⟨pre, b, post, a, e, rfl, ha, hl, hn⟩ := lookup_in h none hp
  have hl' : getBlockPosition (total pre + a) 0 s = .ok (pre.length, s) := hl
  have hb : s.blocks[pre.length]? = some b := by rw [e]; simp
  obtain ⟨ok, hpl, hpos⟩ := ok_of_split h e
  simp only [get, bind_apply, hl', obind_ok, nBlocks_ap, if_neg hn, getB_ap, hb]
  rcases cell_at h e ha with ⟨hd, hc⟩ | ⟨d, v, hd, hv, hc⟩
  · rw [hd]; exact ⟨none, rfl, by simpa using hc⟩
  · have hty : d.ty = ty := by
      have h1 : tyAt (cells s.blocks) (total pre + a) = some d.ty := by simp [tyAt, hc]
      rw [h1] at ht
      simpa using ht
    subst hty
    have e1 : total pre + a - b.pos = a := by omega
    simp only [hd, bind_apply, e1, getValue_ok d a v hv, obind_ok]
    exact ⟨some v, rfl, by simpa using hc⟩

theorem getType_in {S : Option Ty → Prop} {s : St α} (h : WF S s) {pos : Nat} (hp : pos < s.cur) :
    getType pos s = .ok (tyAt (cells s.blocks) pos, s) ∧ isEmpty pos s = .ok ((tyAt (cells s.blocks) pos).isNone, s) := by
  obtain ⟨pre, b, post, a, e, rfl, ha, hl, hn⟩ := lookup_in h none hp
  have hl' : getBlockPosition (total pre + a) 0 s = .ok (pre.length, s) := hl
  have hb : s.blocks[pre.length]? = some b := by rw [e]; simp
  have hty : tyAt (cells s.blocks) (total pre + a) = b.ty := by
    rcases cell_at h e ha with ⟨hd, hc⟩ | ⟨d, v, hd, hv, hc⟩ <;> simp [tyAt, hc, Blk.ty, hd]
  simp only [getType, isEmpty, bind_apply, hl', obind_ok, nBlocks_ap, if_neg hn, getB_ap, hb, hty]
  refine ⟨rfl, ?_⟩
  simp [M.pure, Blk.ty]

theorem read_out {s : St α} {pos : Nat} (hp : s.cur ≤ pos) (ty : Ty) :
    get pos ty s = .err .outOfRange s ∧ getType pos s = .err .outOfRange s ∧ isEmpty pos s = .err .outOfRange s := by
  simp [get, getType, isEmpty, bind_apply, getBlockPosition_end hp, nBlocks_ap, throw_]

theorem position_in {S : Option Ty → Prop} {s : St α} (h : WF S s) (at_ : At) {pos : Nat} (hp : pos ≤ s.cur) :
    ∃ p, position at_ pos s = .ok (p, s) ∧ Designates s p pos := by
  by_cases hc : pos = s.cur
  · refine ⟨(s.blocks.length, 0), ?_, Or.inr ⟨rfl, hc⟩⟩
    simp only [position, bind_apply, curSize_ap, nBlocks_ap, obind_ok, if_pos hc, M.pure]
  · obtain ⟨pre, b, post, a, e, rfl, ha, hl, hn⟩ := lookup_in h at_ (pos := pos) (by omega)
    have hb : s.blocks[pre.length]? = some b := by rw [e]; simp
    obtain ⟨ok, hpl, hpos⟩ := ok_of_split h e
    refine ⟨(pre.length, total pre + a - b.pos), ?_, Or.inl ⟨b, hb, by simp only; omega, by simp only; omega⟩⟩
    simp only [position, bind_apply, curSize_ap, nBlocks_ap, obind_ok, if_neg hc, hl, if_neg hn, getB_ap, hb, M.pure]

theorem position_out {S : Option Ty → Prop} {s : St α} (h : WF S s) (at_ : At) {pos : Nat} (hp : s.cur < pos)
    (hn : at_ = none ∨ 0 < s.cur) : position at_ pos s = .err .outOfRange s := by
  have hc : ¬ pos = s.cur := by omega
  simp [position, bind_apply, curSize_ap, nBlocks_ap, hc, lookup_out h at_ (Nat.le_of_lt hp) hn, throw_]

theorem block_facts {S : Option Ty → Prop} {s : St α} (h : WF S s) {i : Nat} {b : Blk α} (hb : s.blocks[i]? = some b) :
    0 < b.size ∧ b.pos + b.size ≤ s.cur ∧
      ((∃ c, s.blocks[i + 1]? = some c ∧ c.pos = b.pos + b.size) ∨ (i + 1 = s.blocks.length ∧ s.cur = b.pos + b.size)) ∧
      (i = 0 → b.pos = 0) := by
  have ht := (tile_iff s.blocks 0).1 h.tile
  have h1 := ht i b hb
  have hi : i < s.blocks.length := (List.getElem?_eq_some_iff.1 hb).1
  have hbe : s.blocks[i] = b := (List.getElem?_eq_some_iff.1 hb).2
  have hcur : s.cur = total (s.blocks.take (i + 1)) + total (s.blocks.drop (i + 1)) := by
    rw [h.cur, ← total_append, List.take_append_drop]
  have htk : total (s.blocks.take (i + 1)) = total (s.blocks.take i) + b.size := by
    rw [List.take_succ_eq_append_getElem hi, total_append, hbe]; simp
  refine ⟨h1.2.1, by omega, ?_, by rintro rfl; simpa using h1.1⟩
  by_cases hl : i + 1 < s.blocks.length
  · left
    refine ⟨s.blocks[i + 1], List.getElem?_eq_getElem hl, ?_⟩
    have := (ht (i + 1) s.blocks[i + 1] (List.getElem?_eq_getElem hl)).1
    omega
  · right
    have : s.blocks.drop (i + 1) = [] := List.drop_of_length_le (by omega)
    rw [this] at hcur
    simp at hcur
    exact ⟨by omega, by omega⟩

theorem advanceFwd_ok {S : Option Ty → Prop} {s : St α} (h : WF S s) : ∀ (fuel : Nat) (p : Nat × Nat) (q k : Nat),
    Designates s p q → q + k ≤ s.cur → s.blocks.length < fuel + p.1 →
    ∃ p', advanceFwd fuel p k s = .ok (p', s) ∧ Designates s p' (q + k)
  | 0, p, q, k, hd, hk, hf => by
    exfalso
    rcases hd with ⟨b, hb, -, -⟩ | ⟨rfl, -⟩
    · have := (List.getElem?_eq_some_iff.1 hb).1; omega
    · simp at hf
  | fuel + 1, p, q, k, hd, hk, hf => by
    by_cases hk0 : k = 0
    · subst hk0
      exact ⟨p, by simp [advanceFwd, M.pure], hd⟩
    rcases hd with ⟨b, hb, h1, h2⟩ | ⟨rfl, h2⟩
    · obtain ⟨f1, f2, f3, -⟩ := block_facts h hb
      simp only [advanceFwd, if_neg hk0, bind_apply, getB_ap, hb, obind_ok]
      by_cases hlt : p.2 + k < b.size
      · rw [if_pos hlt]
        exact ⟨_, rfl, Or.inl ⟨b, hb, hlt, by simp only; omega⟩⟩
      · rw [if_neg hlt, if_neg (by omega), if_pos (by omega)]
        have hd' : Designates s (p.1 + 1, 0) (b.pos + b.size) := by
          rcases f3 with ⟨c, hc, hcp⟩ | ⟨he, hce⟩
          · exact Or.inl ⟨c, hc, (block_facts h hc).1, by simp only; omega⟩
          · exact Or.inr ⟨by rw [he], by omega⟩
        obtain ⟨p', h3, h4⟩ := advanceFwd_ok h fuel (p.1 + 1, 0) (b.pos + b.size) (k - (b.size - p.2)) hd' (by omega) (by simp only; omega)
        refine ⟨p', h3, ?_⟩
        have : q + k = b.pos + b.size + (k - (b.size - p.2)) := by omega
        rw [this]; exact h4
    · omega

theorem advanceBwd_ok {S : Option Ty → Prop} {s : St α} (h : WF S s) : ∀ (fuel : Nat) (p : Nat × Nat) (q k : Nat),
    Designates s p q → k ≤ q → p.1 < fuel →
    ∃ p', advanceBwd fuel p k s = .ok (p', s) ∧ Designates s p' (q - k)
  | 0, p, q, k, hd, hk, hf => by omega
  | fuel + 1, p, q, k, hd, hk, hf => by
    by_cases hk0 : k = 0
    · subst hk0
      exact ⟨p, by simp [advanceBwd, M.pure], hd⟩
    simp only [advanceBwd, if_neg hk0]
    by_cases hle : k ≤ p.2
    · rw [if_pos hle]
      rcases hd with ⟨b, hb, h1, h2⟩ | ⟨rfl, h2⟩
      · exact ⟨_, rfl, Or.inl ⟨b, hb, by simp only; omega, by simp only; omega⟩⟩
      · simp only at hle; omega
    · rw [if_neg hle]
      have key : ∀ i, p.1 = i + 1 → ∃ c, s.blocks[i]? = some c ∧ c.pos + c.size + p.2 = q := by
        intro i hi
        have hil : i < s.blocks.length := by
          rcases hd with ⟨b, hb, -, -⟩ | ⟨rfl, -⟩
          · have := (List.getElem?_eq_some_iff.1 hb).1; omega
          · simp only at hi; omega
        refine ⟨s.blocks[i], List.getElem?_eq_getElem hil, ?_⟩
        obtain ⟨f1, f2, f3, -⟩ := block_facts h (List.getElem?_eq_getElem hil)
        rcases hd with ⟨b, hb, h1, h2⟩ | ⟨rfl, h2⟩
        · rw [hi] at hb
          rcases f3 with ⟨c, hc, hcp⟩ | ⟨he, -⟩
          · rw [hc] at hb; cases hb; omega
          · have := (List.getElem?_eq_some_iff.1 hb).1; omega
        · rcases f3 with ⟨c, hc, hcp⟩ | ⟨he, hce⟩
          · have := (List.getElem?_eq_some_iff.1 hc).1; simp only at hi; omega
          · simp only; omega
      rcases hp1 : p.1 with _ | i
      · exfalso
        rcases hd with ⟨b, hb, h1, h2⟩ | ⟨rfl, h2⟩
        · have := (block_facts h hb).2.2.2 hp1; omega
        · simp only at hp1
          have hb0 : s.blocks = [] := List.length_eq_zero_iff.1 hp1
          have := h.cur
          rw [hb0] at this
          simp at this
          omega
      · obtain ⟨c, hc, hcq⟩ := key i hp1
        obtain ⟨f1, f2, f3, -⟩ := block_facts h hc
        simp only [bind_apply, getB_ap, hc, obind_ok, if_neg (show ¬ c.size = 0 by omega)]
        obtain ⟨p', h3, h4⟩ := advanceBwd_ok h fuel (i, c.size - 1) (c.pos + (c.size - 1)) (k - (p.2 + 1))
          (Or.inl ⟨c, hc, by simp only; omega, rfl⟩) (by omega) (by simp only; omega)
        refine ⟨p', h3, ?_⟩
        have : q - k = c.pos + (c.size - 1) - (k - (p.2 + 1)) := by omega
        rw [this]; exact h4

theorem advance_ok {S : Option Ty → Prop} {s : St α} (h : WF S s) {p : Nat × Nat} {q : Nat} (hd : Designates s p q)
    (k : Int) (h1 : 0 ≤ q + k) (h2 : q + k ≤ s.cur) :
    ∃ p', advancePosition p k s = .ok (p', s) ∧ Designates s p' (q + k).toNat := by
  unfold advancePosition
  have hp : p.1 ≤ s.blocks.length := by
    rcases hd with ⟨b, hb, -, -⟩ | ⟨rfl, -⟩
    · have := (List.getElem?_eq_some_iff.1 hb).1; omega
    · simp
  by_cases hk : 0 < k
  · rw [if_pos hk]
    obtain ⟨p', h3, h4⟩ := advanceFwd_ok h (s.blocks.length + 1) p q k.toNat hd (by omega) (by omega)
    exact ⟨p', h3, by rwa [show (q + k).toNat = q + k.toNat by omega]⟩
  · rw [if_neg hk]
    obtain ⟨p', h3, h4⟩ := advanceBwd_ok h (s.blocks.length + 1) p q (-k).toNat hd (by omega) (by omega)
    exact ⟨p', h3, by rwa [show (q + k).toNat = q - (-k).toNat by omega]⟩

theorem next_ok {S : Option Ty → Prop} {s : St α} (h : WF S s) {p : Nat × Nat} {q : Nat} (hd : Designates s p q)
    (h1 : q < s.cur) : ∃ p', nextPosition p s = .ok (p', s) ∧ Designates s p' (q + 1) := by
  rcases hd with ⟨b, hb, h2, h3⟩ | ⟨rfl, h3⟩
  · obtain ⟨f1, f2, f3, -⟩ := block_facts h hb
    simp only [nextPosition, bind_apply, getB_ap, hb, obind_ok]
    by_cases hlt : p.2 + 1 < b.size
    · rw [if_pos hlt]
      exact ⟨_, rfl, Or.inl ⟨b, hb, hlt, by simp only; omega⟩⟩
    · rw [if_neg hlt]
      refine ⟨_, rfl, ?_⟩
      rcases f3 with ⟨c, hc, hcp⟩ | ⟨he, hce⟩
      · exact Or.inl ⟨c, hc, (block_facts h hc).1, by simp only; omega⟩
      · exact Or.inr ⟨by rw [he], by omega⟩
  · omega

theorem logical_ok {s : St α} {p : Nat × Nat} {q : Nat} (hd : Designates s p q) (h1 : q < s.cur) :
    logicalPosition p s = .ok (q, s) := by
  rcases hd with ⟨b, hb, h2, h3⟩ | ⟨rfl, h3⟩
  · simp only [logicalPosition, bind_apply, getB_ap, hb, obind_ok, M.pure, h3]
  · omega

theorem designates_inj {S : Option Ty → Prop} {s : St α} (h : WF S s) {p p' : Nat × Nat} {q : Nat}
    (h1 : Designates s p q) (h2 : Designates s p' q) : p = p' := by
  have main : ∀ p p' b b' : _, s.blocks[(p : Nat × Nat).1]? = some b → s.blocks[(p' : Nat × Nat).1]? = some b' → p.2 < b.size →
      p'.2 < b'.size → b.pos + p.2 = b'.pos + p'.2 → p.1 < p'.1 → False := by
    intro p p' b b' hb hb' l1 l2 e hlt
    have ht := (tile_iff s.blocks 0).1 h.tile
    have e1 := (ht _ _ hb).1
    have e2 := (ht _ _ hb').1
    have hi : p.1 < s.blocks.length := (List.getElem?_eq_some_iff.1 hb).1
    have hbe : s.blocks[p.1] = b := (List.getElem?_eq_some_iff.1 hb).2
    have htk : total (s.blocks.take (p.1 + 1)) = total (s.blocks.take p.1) + b.size := by
      rw [List.take_succ_eq_append_getElem hi, total_append, hbe]; simp
    have : total (s.blocks.take (p.1 + 1)) ≤ total (s.blocks.take p'.1) := by
      have : s.blocks.take p'.1 = (s.blocks.take (p.1 + 1)) ++ (s.blocks.take p'.1).drop (p.1 + 1) := by
        conv => lhs; rw [← List.take_append_drop (p.1 + 1) (s.blocks.take p'.1)]
        rw [List.take_take, Nat.min_eq_left (by omega)]
      rw [this, total_append]; omega
    omega
  rcases h1 with ⟨b, hb, l1, e1⟩ | ⟨rfl, e1⟩ <;> rcases h2 with ⟨b', hb', l2, e2⟩ | ⟨rfl, e2⟩
  · rcases Nat.lt_trichotomy p.1 p'.1 with hlt | heq | hgt
    · exact (main p p' b b' hb hb' l1 l2 (by omega) hlt).elim
    · rw [heq] at hb
      rw [hb] at hb'
      cases hb'
      exact Prod.ext heq (by omega)
    · exact (main p' p b' b hb' hb l2 l1 (by omega) hgt).elim
  · have := (block_facts h hb).2.1; omega
  · have := (block_facts h hb').2.1; omega
  · rfl

/-! ### Comparison -/

theorem map_some_inj {t : Ty} {l l' : List α} (h : l.map (fun v => some (t, v)) = l'.map (fun v => some (t, v))) : l = l' :=
  List.map_injective_iff.2 (fun a b hab => by simpa using hab) h

/-- Two blocks show the same run. -/
def SameBlk (a b : Blk α) : Prop := a.pos = b.pos ∧ a.size = b.size ∧ sameData a.data b.data = true

theorem sameData_cells {a b : Blk α} (h : SameBlk a b) : a.cells = b.cells := by
  obtain ⟨-, h2, h3⟩ := h
  rcases a with ⟨p, n, _ | d⟩ <;> rcases b with ⟨p', n', _ | d'⟩ <;> simp [sameData] at h2 h3 ⊢
  · exact h2
  · obtain ⟨h4, h5⟩ := h3; rw [h4, h5]

theorem cells_sameData {a b : Blk α} (ha : a.ok) (hb : b.ok) (hp : a.pos = b.pos) (hs : a.size = b.size) (h : a.cells = b.cells) :
    SameBlk a b := by
  refine ⟨hp, hs, ?_⟩
  rcases a with ⟨p, n, _ | d⟩ <;> rcases b with ⟨p', n', _ | d'⟩
  · rfl
  · exfalso
    have hv : d'.vals.length = n' := hb.2 d' rfl
    have : 0 < n' := hb.1
    rcases hd : d'.vals with _ | ⟨v, vs⟩
    · rw [hd] at hv; simp at hv; omega
    · simp [hd] at h hs
      subst hs
      rcases n with _ | n
      · omega
      · simp [List.replicate_succ] at h
  · exfalso
    have hv : d.vals.length = n := ha.2 d rfl
    have : 0 < n := ha.1
    rcases hd : d.vals with _ | ⟨v, vs⟩
    · rw [hd] at hv; simp at hv; omega
    · simp [hd] at h hs
      subst hs
      rcases n with _ | n
      · omega
      · simp [List.replicate_succ] at h
  · have hv : d.vals.length = n := ha.2 d rfl
    have : 0 < n := ha.1
    rcases d with ⟨i, t, l⟩
    rcases d' with ⟨i', t', l'⟩
    simp at h hv ⊢
    have ht : t = t' := by
      rcases l with _ | ⟨v, l⟩
      · simp at hv; omega
      · rcases l' with _ | ⟨v', l'⟩
        · simp at h
        · simp at h; exact h.1.1
    subst ht
    simp [sameData, map_some_inj h]

/-- A canonical block list is determined by its cells. -/
theorem canonical_unique : ∀ (l l' : List (Blk α)) (p : Nat), Tile p l → Tile p l' → Sep (fun _ => False) l →
    Sep (fun _ => False) l' → cells l = cells l' → List.Forall₂ SameBlk l l'
  | [], [], _, _, _, _, _, _ => .nil
  | [], b :: l', p, _, h2, _, _, h => by
    have := cells_length_of_ok h2.2.1
    have h3 : (cells (b :: l')).length = 0 := by rw [← h]; rfl
    have := h2.2.1.1
    rw [cells_cons, List.length_append] at h3; omega
  | b :: l, [], p, h1, _, _, _, h => by
    have := cells_length_of_ok h1.2.1
    have h3 : (cells (b :: l)).length = 0 := by rw [h]; rfl
    have := h1.2.1.1
    rw [cells_cons, List.length_append] at h3; omega
  | b :: l, b' :: l', p, h1, h2, c1, c2, h => by
    obtain ⟨p1, o1, t1⟩ := h1
    obtain ⟨p2, o2, t2⟩ := h2
    have z1 := cells_length_of_ok o1
    have z2 := cells_length_of_ok o2
    have hty : b.ty = b'.ty := by
      have e1 := tyAt_block (P := []) (R := cells l) o1 (i := 0) (by simp) (by simpa using o1.1)
      have e2 := tyAt_block (P := []) (R := cells l') o2 (i := 0) (by simp) (by simpa using o2.1)
      simp only [List.nil_append] at e1 e2
      simp only [cells_cons] at h
      rw [← e1, ← e2, h]
    -- the run cannot end earlier in one of the two lists
    have main : ∀ (b b' : Blk α) (l l' : List (Blk α)) (q), b.ok → b'.ok → Tile q l → Sep (fun _ => False) (b :: l) →
        cells (b :: l) = cells (b' :: l') → b.ty = b'.ty → b.cells.length = b.size → b'.cells.length = b'.size →
        ¬ b.size < b'.size := by
      intro b b' l l' q o1 o2 t1 c1 h hty z1 z2 hlt
      rcases l with _ | ⟨c, l⟩
      · have := congrArg List.length h
        simp [z1, z2] at this
        omega
      · have e2 := tyAt_block (P := []) (R := cells l') o2 (i := b.size) (by simp) (by simpa using hlt)
        have e1 := tyAt_block (P := b.cells) (R := cells l) (b := c) t1.2.1 (i := b.size) (by omega) (by have := t1.2.1.1; omega)
        simp only [List.nil_append] at e2
        simp only [cells_cons] at h
        rw [h, e2] at e1
        unfold Sep at c1
        simp only [List.map_cons, List.isChain_cons_cons] at c1
        exact c1.1 (hty.trans e1)
    have hs : b.size = b'.size := by
      have m1 := main b b' l l' _ o1 o2 t1 c1 h hty z1 z2
      have m2 := main b' b l' l _ o2 o1 t2 c2 h.symm hty.symm z2 z1
      omega
    simp only [cells_cons] at h
    obtain ⟨hb, hl⟩ := List.append_inj h (by omega)
    refine .cons (cells_sameData o1 o2 (by omega) hs hb) (canonical_unique l l' (p + b.size) t1 (by rw [hs]; exact t2) ?_ ?_ hl)
    · unfold Sep at c1 ⊢; simp only [List.map_cons] at c1; exact List.IsChain.tail c1
    · unfold Sep at c2 ⊢; simp only [List.map_cons] at c2; exact List.IsChain.tail c2

theorem equals_iff (s t : St α) : equals s t = true ↔ s.cur = t.cur ∧ List.Forall₂ SameBlk s.blocks t.blocks := by
  have key : ∀ l l' : List (Blk α), (l.map Blk.pos = l'.map Blk.pos ∧ l.map Blk.size = l'.map Blk.size ∧ l.length = l'.length ∧
      ∀ p ∈ l.zip l', sameData p.1.data p.2.data = true) ↔ List.Forall₂ SameBlk l l' := by
    intro l
    induction l with
    | nil =>
      intro l'
      rcases l' with _ | ⟨b, l'⟩
      · simp
      · simp
    | cons a l ih =>
      intro l'
      rcases l' with _ | ⟨b, l'⟩
      · simp
      · rw [List.forall₂_cons, ← ih]
        simp only [List.map_cons, List.cons.injEq, List.length_cons, Nat.add_right_cancel_iff, List.zip_cons_cons,
          List.forall_mem_cons, SameBlk]
        constructor
        · rintro ⟨⟨h1, h2⟩, ⟨h3, h4⟩, h5, h6, h7⟩; exact ⟨⟨h1, h3, h6⟩, h2, h4, h5, h7⟩
        · rintro ⟨⟨h1, h3, h6⟩, h2, h4, h5, h7⟩; exact ⟨⟨h1, h2⟩, ⟨h3, h4⟩, h5, h6, h7⟩
  rw [← key]
  unfold equals
  simp only [Bool.and_eq_true, beq_iff_eq, List.all_eq_true]
  tauto

theorem forall2_cells {l l' : List (Blk α)} (h : List.Forall₂ SameBlk l l') : cells l = cells l' := by
  induction h with
  | nil => rfl
  | cons h1 _ ih => simp only [cells_cons, sameData_cells h1, ih]

end Mdds.Mtv
