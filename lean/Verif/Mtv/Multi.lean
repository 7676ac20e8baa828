import Verif.Mtv.SetLemmas
import Verif.Mtv.ModelRange
import Verif.Mtv.ApCmd
/-!
Closed forms for the loops over several blocks.
-/
namespace Mdds.Mtv
open Mdds

set_option linter.unusedSimpArgs false
set_option linter.unusedVariables false
set_option linter.unusedSectionVars false

variable {α : Type}

/-- A slot whose element block was taken away. -/
def clr (b : Blk α) : Blk α := { b with data := none }
/-- Typed values of a block / a block list. -/
def Blk.typed (b : Blk α) : List (Ty × α) :=
  match b.data with
  | none => []
  | some d => d.vals.map (fun v => (d.ty, v))
def typed (bs : List (Blk α)) : List (Ty × α) := bs.flatMap Blk.typed

@[simp] theorem typed_nil : typed ([] : List (Blk α)) = [] := rfl
@[simp] theorem typed_cons (b : Blk α) (bs) : typed (b :: bs) = b.typed ++ typed bs := by simp [typed]
@[simp] theorem typed_append (a b : List (Blk α)) : typed (a ++ b) = typed a ++ typed b := by simp [typed]
@[simp] theorem typed_mk_none (p n) : (Blk.mk p n none : Blk α).typed = [] := rfl
@[simp] theorem typed_mk_some (p n) (d : EB α) :
    (Blk.mk p n (some d)).typed = d.vals.map (fun v => (d.ty, v)) := rfl

@[simp] theorem count_btyped [DecidableEq α] (b : Blk α) (z : Ty × α) :
    b.typed.count z = b.cells.count (some z) := by
  rcases b with ⟨p, n, _ | d⟩
  · simp [List.count_replicate]
  · simp
@[simp] theorem count_typed [DecidableEq α] (bs : List (Blk α)) (z : Ty × α) :
    (typed bs).count z = (cells bs).count (some z) := by
  induction bs with
  | nil => rfl
  | cons b bs ih => simp [ih]

@[simp] theorem nacq_rels (l : List Nat) : nacq (l.map Ev.rel) = 0 := by
  induction l with
  | nil => rfl
  | cons a l ih => simp [ih]
@[simp] theorem nrel_rels (l : List Nat) : nrel (l.map Ev.rel) = l.length := by
  induction l with
  | nil => rfl
  | cons a l ih => simp [ih]
@[simp] theorem acqs_rels (i) (l : List Nat) : acqs i (l.map Ev.rel) = 0 := by
  induction l with
  | nil => rfl
  | cons a l ih => simp [ih]
@[simp] theorem rels_rels (i) (l : List Nat) : rels i (l.map Ev.rel) = l.count i := by
  induction l with
  | nil => rfl
  | cons a l ih => simp [ih, List.count_cons]; omega

@[mev] theorem drop_map_pre {τ σ : Type} (f : τ → σ) (m : List τ) (l : List σ) (k : Nat) :
    (m.map f ++ l).drop (m.length + k) = l.drop k := by
  simp [List.drop_append]
@[mev] theorem drop_map_pre0 {τ σ : Type} (f : τ → σ) (m : List τ) (l : List σ) :
    (m.map f ++ l).drop m.length = l := by
  simp [List.drop_append]
@[mev] theorem take_map_pre {τ σ : Type} (f : τ → σ) (m : List τ) (l : List σ) (k : Nat) :
    (m.map f ++ l).take (m.length + k) = m.map f ++ l.take k := by
  simp [List.take_append, List.take_of_length_le]
@[mev] theorem take_map_pre0 {τ σ : Type} (f : τ → σ) (m : List τ) (l : List σ) :
    (m.map f ++ l).take m.length = m.map f := by
  simp [List.take_append]

theorem set_take_drop {τ : Type} (l : List τ) (i : Nat) (b : τ) (h : i < l.length) :
    l.set i b = l.take i ++ b :: l.drop (i + 1) := by
  rw [List.set_eq_take_append_cons_drop]; simp [h]

@[mev] theorem deleteElementBlocks_cf (n : Nat) : ∀ (i : Nat) (bs : List (Blk α)) (c fr ev nx),
    deleteElementBlocks i n ⟨bs, c, fr, ev, nx⟩ =
      if n = 0 ∨ i + n ≤ bs.length then
        .ok ((), ⟨bs.take i ++ (((bs.drop i).take n).map clr ++ bs.drop (i + n)), c,
          fr ++ typed ((bs.drop i).take n), ev ++ (ids ((bs.drop i).take n)).map Ev.rel, nx⟩)
      else .ub := by
  induction n with
  | zero => intro i bs c fr ev nx; simp [deleteElementBlocks]
  | succ n ih =>
    intro i bs c fr ev nx
    by_cases h : i < bs.length
    · have e : bs = bs.take i ++ bs[i] :: bs.drop (i + 1) := by simp
      have hl : (bs.take i).length = i := by simp; omega
      generalize hA : bs.take i = A at e hl
      generalize hB : bs.drop (i + 1) = B at e
      generalize bs[i] = b at e
      subst hl
      subst e
      clear h hA hB
      have h1 : n = 0 ∨ A.length + 1 + n ≤ A.length + (B.length + 1) ↔ n ≤ B.length := by omega
      have h2 : A.length + (n + 1) ≤ A.length + (B.length + 1) ↔ n ≤ B.length := by omega
      have h3 : A.length + 1 + n = A.length + (n + 1) := by omega
      have h4 : (n = 0 ∨ n ≤ B.length) ↔ n ≤ B.length := by omega
      rcases b with ⟨p, m, _ | d⟩ <;>
        simp [deleteElementBlocks, mev, ih, h1, h2, h3, h4, clr]
    · have hb : bs[i]? = none := List.getElem?_eq_none (by omega)
      have : ¬ i + (n + 1) ≤ bs.length := by omega
      simp [deleteElementBlocks, mev, hb, this]

/-- Deletion of a stretch of blocks in context. -/
theorem deleteElementBlocks_pre (A D R : List (Blk α)) (c fr ev nx) :
    deleteElementBlocks A.length D.length ⟨A ++ (D ++ R), c, fr, ev, nx⟩ =
      .ok ((), ⟨A ++ (D.map clr ++ R), c, fr ++ typed D, ev ++ (ids D).map Ev.rel, nx⟩) := by
  rw [deleteElementBlocks_cf]; simp

@[mev] theorem emptyMid_cf (ow : Bool) (n : Nat) : ∀ (i : Nat) (bs : List (Blk α)) (c fr ev nx),
    emptyMid ow i n ⟨bs, c, fr, ev, nx⟩ =
      if n = 0 ∨ i + n ≤ bs.length then
        .ok ((), ⟨bs.take i ++ (((bs.drop i).take n).map clr ++ bs.drop (i + n)), c,
          fr ++ (if ow then typed ((bs.drop i).take n) else []), ev ++ (ids ((bs.drop i).take n)).map Ev.rel, nx⟩)
      else .ub := by
  induction n with
  | zero => intro i bs c fr ev nx; cases ow <;> simp [emptyMid]
  | succ n ih =>
    intro i bs c fr ev nx
    by_cases h : i < bs.length
    · have e : bs = bs.take i ++ bs[i] :: bs.drop (i + 1) := by simp
      have hl : (bs.take i).length = i := by simp; omega
      generalize hA : bs.take i = A at e hl
      generalize hB : bs.drop (i + 1) = B at e
      generalize bs[i] = b at e
      subst hl
      subst e
      clear h hA hB
      have h1 : n = 0 ∨ A.length + 1 + n ≤ A.length + (B.length + 1) ↔ n ≤ B.length := by omega
      have h2 : A.length + (n + 1) ≤ A.length + (B.length + 1) ↔ n ≤ B.length := by omega
      have h3 : A.length + 1 + n = A.length + (n + 1) := by omega
      have h4 : (n = 0 ∨ n ≤ B.length) ↔ n ≤ B.length := by omega
      rcases b with ⟨p, m, _ | d⟩ <;> cases ow <;>
        simp [emptyMid, forgetIf, mev, ih, h1, h2, h3, h4, clr]
    · have hb : bs[i]? = none := List.getElem?_eq_none (by omega)
      have : ¬ i + (n + 1) ≤ bs.length := by omega
      simp [emptyMid, mev, hb, this]

/-- A stretch between a block of type `t` and one of type `u`. -/
def SM (S : Option Ty → Prop) (t : Option Ty) (mid : List (Blk α)) (u : Option Ty) : Prop :=
  (t :: (mid.map Blk.ty ++ [u])).IsChain (fun a b => a = b → S a)

@[simp] theorem SR_append (S) (t) (mid : List (Blk α)) (b : Blk α) (l) :
    SR S t (mid ++ b :: l) ↔ SM S t mid b.ty ∧ SR S b.ty l := by
  simp only [SR, SM, List.map_append, List.map_cons]
  induction mid generalizing t with
  | nil => simp
  | cons m mid ih => simp only [List.map_cons, List.cons_append, List.isChain_cons_cons, ih]; tauto

@[simp] theorem up_mk (d p n) (x : Option (EB α)) : up d ⟨p, n, x⟩ = ⟨p + d, n, x⟩ := rfl
@[simp] theorem down_mk (d p n) (x : Option (EB α)) : down d ⟨p, n, x⟩ = ⟨p - d, n, x⟩ := rfl

/-- Positions of the blocks after a tiled stretch. -/
theorem tile_ge {bs : List (Blk α)} : ∀ {p : Nat}, Tile p bs → ∀ x ∈ bs, p ≤ x.pos := by
  induction bs with
  | nil => intro p _ x hx; simp at hx
  | cons b bs ih =>
    intro p h x hx
    obtain ⟨h1, h2, h3⟩ := h
    rcases List.mem_cons.1 hx with rfl | hx
    · omega
    · have := ih h3 x hx; omega
theorem post_ge {S : Option Ty → Prop} {s : St α} {pre post : List (Blk α)} {b : Blk α} (h : WF S s)
    (e : s.blocks = pre ++ b :: post) : ∀ x ∈ post, total pre + b.size ≤ x.pos := by
  have ht := h.tile
  rw [e] at ht
  simp at ht
  exact tile_ge ht.2.2.2

/-- A block cut after its first `a` elements, `0 < a`. -/
theorem head_cases (ty : Ty) (b : Blk α) (a : Nat) (hok : b.ok) (ha : 0 < a) (hs : a < b.size) :
    (∃ p m, b = ⟨p, a + (m + 1), none⟩) ∨
    (∃ p i va y vm, va ≠ [] ∧ a = va.length ∧
      b = ⟨p, va.length + (vm.length + 1), some ⟨i, ty, va ++ (y :: vm)⟩⟩) ∨
    (∃ p i t va y vm, t ≠ ty ∧ ty ≠ t ∧ va ≠ [] ∧ a = va.length ∧
      b = ⟨p, va.length + (vm.length + 1), some ⟨i, t, va ++ (y :: vm)⟩⟩) := by
  rcases b with ⟨p, n, _ | ⟨i, t, vals⟩⟩
  · left
    obtain ⟨m, hm⟩ : ∃ m, n = a + (m + 1) := ⟨n - a - 1, by simp at hs; omega⟩
    exact ⟨p, m, by rw [hm]⟩
  · right
    have hl : vals.length = n := hok.2 _ rfl
    simp at hs
    subst hl
    obtain ⟨y, vm, he⟩ : ∃ y vm, vals.drop a = y :: vm := by
      rcases h : vals.drop a with _ | ⟨y, vm⟩
      · have := congrArg List.length h; simp at this; omega
      · exact ⟨y, vm, rfl⟩
    have e : vals = vals.take a ++ (y :: vm) := by rw [← he]; simp
    have el : (vals.take a).length = a := by simp; omega
    generalize vals.take a = va at e el
    subst e
    subst el
    have hva : va ≠ [] := List.length_pos_iff.1 ha
    by_cases h : t = ty
    · subst h; exact .inl ⟨p, i, va, y, vm, hva, rfl, by simp⟩
    · exact .inr ⟨p, i, t, va, y, vm, h, fun e => h e.symm, hva, rfl, by simp⟩

/-- A block whose first `d + 1` elements are cut off, leaving something. -/
theorem tail_cases (ty : Ty) (b : Blk α) (d : Nat) (hok : b.ok) (hs : d + 1 < b.size) :
    (∃ p k, b = ⟨p, d + 1 + (k + 1), none⟩) ∨
    (∃ p i y vd w vb, d = vd.length ∧
      b = ⟨p, vd.length + 1 + (vb.length + 1), some ⟨i, ty, y :: (vd ++ (w :: vb))⟩⟩) ∨
    (∃ p i t y vd w vb, t ≠ ty ∧ ty ≠ t ∧ d = vd.length ∧
      b = ⟨p, vd.length + 1 + (vb.length + 1), some ⟨i, t, y :: (vd ++ (w :: vb))⟩⟩) := by
  have hc := head_cases ty b (d + 1) hok (by omega) hs
  rcases hc with ⟨p, m, rfl⟩ | ⟨p, i, va, y, vm, hva, e, rfl⟩ | ⟨p, i, t, va, y, vm, h1, h2, hva, e, rfl⟩
  · exact .inl ⟨p, m, rfl⟩
  all_goals
    rcases va with _ | ⟨z, va⟩
    · exact absurd rfl hva
    simp at e
  · exact .inr (.inl ⟨p, i, z, va, y, vm, e, by simp⟩)
  · exact .inr (.inr ⟨p, i, t, z, va, y, vm, h1, h2, e, by simp⟩)

theorem prev0_cases (pre : List (Blk α)) :
    pre = [] ∨ (∃ q p n, pre = q ++ [⟨p, n, none⟩]) ∨ (∃ q p n i t v, pre = q ++ [⟨p, n, some ⟨i, t, v⟩⟩]) := by
  rcases snoc_cases pre with h | ⟨q, ⟨p, n, _ | ⟨i, t, v⟩⟩, h⟩
  · exact .inl h
  · exact .inr (.inl ⟨q, p, n, h⟩)
  · exact .inr (.inr ⟨q, p, n, i, t, v, h⟩)
theorem next0_cases (post : List (Blk α)) :
    post = [] ∨ (∃ q p n, post = ⟨p, n, none⟩ :: q) ∨ (∃ q p n i t v, post = ⟨p, n, some ⟨i, t, v⟩⟩ :: q) := by
  rcases post with _ | ⟨⟨p, n, _ | ⟨i, t, v⟩⟩, q⟩
  · exact .inl rfl
  · exact .inr (.inl ⟨q, p, n, rfl⟩)
  · exact .inr (.inr ⟨q, p, n, i, t, v, rfl⟩)

/-- A block with the elements `[a, a + m]` marked. -/
theorem cut_cases (b : Blk α) (a m : Nat) (hok : b.ok) (hs : a + m < b.size) :
    (∃ p k, b = ⟨p, a + (m + 1 + k), none⟩) ∨
    (∃ p i t va y vm vb, a = va.length ∧ m = vm.length ∧
      b = ⟨p, va.length + (vm.length + 1 + vb.length), some ⟨i, t, va ++ (y :: (vm ++ vb))⟩⟩) := by
  rcases b with ⟨p, n, _ | ⟨i, t, vals⟩⟩
  · left
    obtain ⟨k, hk⟩ : ∃ k, n = a + (m + 1 + k) := ⟨n - (a + m + 1), by simp at hs; omega⟩
    exact ⟨p, k, by rw [hk]⟩
  · right
    have hl : vals.length = n := hok.2 _ rfl
    simp at hs
    subst hl
    obtain ⟨y, w, he⟩ : ∃ y w, vals.drop a = y :: w := by
      rcases h : vals.drop a with _ | ⟨y, vm⟩
      · have := congrArg List.length h; simp at this; omega
      · exact ⟨y, vm, rfl⟩
    have e : vals = vals.take a ++ (y :: w) := by rw [← he]; simp
    have el : (vals.take a).length = a := by simp; omega
    generalize vals.take a = va at e el
    subst e
    subst el
    have e2 : w = w.take m ++ w.drop m := by simp
    have e3 : (w.take m).length = m := by simp at hs ⊢; omega
    generalize w.take m = vm at e2 e3
    generalize w.drop m = vb at e2
    subst e2
    subst e3
    exact ⟨p, i, t, va, y, vm, vb, rfl, rfl, by simp; omega⟩

/-- A block cut at offset `a`. -/
theorem head0_cases (b : Blk α) (a : Nat) (hok : b.ok) (hs : a < b.size) :
    (∃ p m, b = ⟨p, a + (m + 1), none⟩) ∨
    (∃ p i t va y vm, a = va.length ∧
      b = ⟨p, va.length + (vm.length + 1), some ⟨i, t, va ++ (y :: vm)⟩⟩) := by
  rcases cut_cases b a 0 hok (by omega) with ⟨p, k, rfl⟩ | ⟨p, i, t, va, y, vm, vb, rfl, e, rfl⟩
  · exact .inl ⟨p, k, by simp; omega⟩
  · have : vm = [] := List.length_eq_zero_iff.1 e.symm
    subst this
    exact .inr ⟨p, i, t, va, y, vb, rfl, by simp; omega⟩

/-- A block whose first `d + 1` elements are cut off. -/
theorem tail0_cases (b : Blk α) (d : Nat) (hok : b.ok) (hs : d < b.size) :
    (∃ p k, b = ⟨p, d + 1 + k, none⟩) ∨
    (∃ p i t y vd vb, d = vd.length ∧
      b = ⟨p, vd.length + 1 + vb.length, some ⟨i, t, y :: (vd ++ vb)⟩⟩) := by
  rcases cut_cases b 0 d hok (by omega) with ⟨p, k, rfl⟩ | ⟨p, i, t, va, y, vm, vb, e, rfl, rfl⟩
  · exact .inl ⟨p, k, by simp⟩
  · have : va = [] := List.length_eq_zero_iff.1 e.symm
    subst this
    exact .inr ⟨p, i, t, y, vm, vb, rfl, by simp⟩

macro "prevs0" p:ident : tactic => `(tactic|
  rcases prev0_cases $p with _ | ⟨_, _, _, _⟩ | ⟨_, _, _, _, _, _, _⟩)
macro "nexts0" p:ident : tactic => `(tactic|
  rcases next0_cases $p with _ | ⟨_, _, _, _⟩ | ⟨_, _, _, _, _, _, _⟩)
macro "nbrs0" p:ident q:ident : tactic => `(tactic| (prevs0 $p <;> nexts0 $q))

macro "heads" t:ident b:ident a:ident h1:term:max h2:term:max h3:term:max : tactic => `(tactic|
  rcases head_cases $t $b $a $h1 $h2 $h3 with ⟨_, _, _⟩ | ⟨_, _, _, _, _, _, _, _⟩ | ⟨_, _, _, _, _, _, _, _, _, _, _⟩)
macro "tails" t:ident b:ident a:ident h1:term:max h2:term:max : tactic => `(tactic|
  rcases tail_cases $t $b $a $h1 $h2 with ⟨_, _, _⟩ | ⟨_, _, _, _, _, _, _, _⟩ | ⟨_, _, _, _, _, _, _, _, _, _, _⟩)

mk_ap mergeWithNext mergeWithAdjacent appendToPrev newBlockAt setCellsSingle multiHead multiTail
  setCellsMultiNonEqual multiTailEqual setCellsMulti insertCellsToMiddle growCur insertIntoPrev
  insertCellsImpl overwriteIf setWholeBlockEmpty setEmptySingle emptyHead emptyTail setEmptyMulti
  shrinkCur eraseMerge eraseSingle eraseHead eraseTail eraseBlocks eraseMulti insertEmptyImpl
  pushBack appendEmpty pushBackEmpty resizeCut resize
attribute [mev] dropOld keepLower cutLower eraseUpper moveLower forgetIf eraseData

end Mdds.Mtv
