import Verif.Mtv.Transfer
import Verif.Mtv.Merge
import Verif.Mtv.History
/-!
Steps of `transfer`: what each one does to the source and to the destination.
-/
namespace Mdds.Mtv
open Mdds

set_option linter.unusedSimpArgs false
set_option linter.unusedVariables false
set_option linter.unusedSectionVars false

variable {α β γ : Type}

/-! ### Evaluation -/

@[mev] theorem bind2_apply (x : M2 α β) (f : β → M2 α γ) (s t : St α) :
    (x >>= f) s t = (x s t).bind f := rfl
@[mev] theorem m2bind_apply (x : M2 α β) (f : β → M2 α γ) (s t : St α) :
    (M2.bind x f) s t = (x s t).bind f := rfl
@[mev] theorem m2pure_apply (b : β) (s t : St α) : (M2.pure b : M2 α β) s t = .ok b s t := rfl
@[mev] theorem bind2_ok (r : β) (s t : St α) (f : β → M2 α γ) : Res2.bind (.ok r s t) f = f r s t := rfl
@[mev] theorem bind2_err (e) (s t : St α) (f : β → M2 α γ) : Res2.bind (.err e s t) f = .err e s t := rfl
@[mev] theorem bind2_ub (f : β → M2 α γ) : Res2.bind .ub f = .ub := rfl
@[mev] theorem throw2_apply (e) (s t : St α) : (throw2 e : M2 α β) s t = .err e s t := rfl

theorem onSrc_ok {x : M α β} {s s' : St α} {b : β} (h : x s = .ok (b, s')) (t : St α) :
    onSrc x s t = .ok b s' t := by simp [onSrc, h]
theorem onDst_ok {x : M α β} {t t' : St α} {b : β} (h : x t = .ok (b, t')) (s : St α) :
    onDst x s t = .ok b s t' := by simp [onDst, h]

@[mev] theorem onSrc_ap (x : M α β) (s t : St α) : onSrc x s t =
    match x s with
    | .ok (b, s') => .ok b s' t
    | .err e s' => .err e s' t
    | .ub => .ub := rfl
@[mev] theorem onDst_ap (x : M α β) (s t : St α) : onDst x s t =
    match x t with
    | .ok (b, t') => .ok b s t'
    | .err e t' => .err e s t'
    | .ub => .ub := rfl

mk_ap slotFor receive handOver slotsFor fillGap closeGap

/-- Normal return of a function on two containers. -/
def Runs2 (o : Res2 α β) (P : β → St α → St α → Prop) : Prop := ∃ r s t, o = .ok r s t ∧ P r s t

@[mev] theorem runs2_ok (r : β) (s t : St α) (P : β → St α → St α → Prop) :
    Runs2 (.ok r s t) P ↔ P r s t := by
  constructor
  · rintro ⟨r, s, t, h, hp⟩
    cases h; exact hp
  · intro h; exact ⟨r, s, t, rfl, h⟩

theorem Runs2.bind {o : Res2 α β} {P : β → St α → St α → Prop} {f : β → M2 α γ}
    {Q : γ → St α → St α → Prop} (h : Runs2 o P) (hf : ∀ r s t, P r s t → Runs2 (f r s t) Q) :
    Runs2 (o.bind f) Q := by
  obtain ⟨r, s, t, rfl, hp⟩ := h
  exact hf r s t hp
theorem Runs2.imp {o : Res2 α β} {P Q : β → St α → St α → Prop} (h : Runs2 o P)
    (hf : ∀ r s t, P r s t → Q r s t) : Runs2 o Q := by
  obtain ⟨r, s, t, e, hp⟩ := h
  exact ⟨r, s, t, e, hf r s t hp⟩
theorem Runs.src {x : M α β} {s : St α} {P : β → St α → Prop} (h : Runs (x s) P) (t : St α) :
    Runs2 (onSrc x s t) (fun r s' t' => P r s' ∧ t' = t) := by
  obtain ⟨r, s', e, hp⟩ := h
  exact ⟨r, s', t, onSrc_ok e t, hp, rfl⟩
theorem Runs.dst {x : M α β} {t : St α} {P : β → St α → Prop} (h : Runs (x t) P) (s : St α) :
    Runs2 (onDst x s t) (fun r s' t' => P r t' ∧ s' = s) := by
  obtain ⟨r, t', e, hp⟩ := h
  exact ⟨r, s, t', onDst_ok e s, hp, rfl⟩

/-! ### Ledgers -/

variable [DecidableEq α]

/-- Values and events balance between `s` and `s'`: `X` came in, `Y` went out. -/
structure Led (s s' : St α) (X Y : List (Option (Ty × α))) : Prop where
  led : ∀ z : Ty × α, z.1.managed = true →
    s'.freed.count z + (cells s'.blocks).count (some z) + Y.count (some z)
      = s.freed.count z + (cells s.blocks).count (some z) + X.count (some z)
  evn : nacq s'.evs + nrel s.evs + (ids s.blocks).length
      = nacq s.evs + nrel s'.evs + (ids s'.blocks).length
  ev : ∀ i, acqs i s'.evs + rels i s.evs + (ids s.blocks).count i
      = acqs i s.evs + rels i s'.evs + (ids s'.blocks).count i

theorem Led.trans {s s1 s2 : St α} {X1 X2 Y1 Y2} (h1 : Led s s1 X1 Y1) (h2 : Led s1 s2 X2 Y2) :
    Led s s2 (X1 ++ X2) (Y1 ++ Y2) := by
  refine ⟨?_, ?_, ?_⟩
  · intro z hz
    have a := h1.led z hz
    have b := h2.led z hz
    rw [List.count_append, List.count_append]
    omega
  · have a := h1.evn
    have b := h2.evn
    omega
  · intro i
    have a := h1.ev i
    have b := h2.ev i
    omega

theorem Led.of_eff {S : Option Ty → Prop} {s s' : St α} {L} (h : Eff S True True s s' L [] []) :
    Led s s' [] [] := ⟨fun z hz => by simpa using h.led trivial z hz, h.evn, h.ev trivial⟩

/-- A well-formed end state and a balanced ledger make an effect. -/
theorem Eff.of_led {S : Option Ty → Prop} {s s' : St α} {L X Y} (h1 : Tile 0 s'.blocks)
    (h2 : s'.cur = total s'.blocks) (h3 : Sep S s'.blocks) (h4 : Mtv.cells s'.blocks = L) (h5 : Led s s' X Y) :
    Eff S True True s s' L (X.filterMap id) (Y.filterMap id) :=
  ⟨h1, h2, h3, h4, fun _ z hz => by rw [count_fm, count_fm]; exact h5.led z hz, h5.evn, fun _ => h5.ev⟩

/-! ### Slots in the destination -/

theorem rep_swap {τ : Type} (n : Nat) (a : τ) (l : List τ) :
    List.replicate n a ++ a :: l = a :: (List.replicate n a ++ l) := by
  induction n with
  | zero => rfl
  | succ n ih => simp [List.replicate_succ, ih]

/-- What is left of an empty block above / below the slots. -/
def cut (p x : Nat) : List (Blk α) := if x = 0 then [] else [⟨p, x, none⟩]

@[simp] theorem cut_zero (p : Nat) : (cut p 0 : List (Blk α)) = [] := rfl
theorem cut_pos (p : Nat) {x : Nat} (h : 0 < x) : (cut p x : List (Blk α)) = [⟨p, x, none⟩] := if_neg (by omega)
@[simp] theorem total_cut (p x : Nat) : total (cut p x : List (Blk α)) = x := by
  by_cases h : x = 0 <;> simp [cut, h]
@[simp] theorem cells_cut (p x : Nat) : cells (cut p x : List (Blk α)) = List.replicate x none := by
  by_cases h : x = 0 <;> simp [cut, h]
@[simp] theorem ids_cut (p x : Nat) : ids (cut p x : List (Blk α)) = [] := by
  by_cases h : x = 0 <;> simp [cut, h]
theorem tile_cut (p x : Nat) : Tile p (cut p x : List (Blk α)) := by
  by_cases h : x = 0
  · simp [cut, h]
  · simp [cut, h]; omega

theorem slotFor_ok (pre post : List (Blk α)) (p x m k : Nat) (c fr ev nx) :
    slotFor pre.length (p + x) (m + 1) ⟨pre ++ ⟨p, x + (m + 1 + k), none⟩ :: post, c, fr, ev, nx⟩ =
      .ok ((pre ++ cut p x).length,
        ⟨(pre ++ cut p x) ++ ⟨p + x, m + 1, none⟩ :: (cut (p + x + (m + 1)) k ++ post), c, fr, ev, nx⟩) := by
  rcases Nat.eq_zero_or_pos x with rfl | hx <;> rcases Nat.eq_zero_or_pos k with rfl | hk
  · simp [mev]
  · have : m + 1 < m + 1 + k := by omega
    simp [mev, this, hk, cut_pos]
  · have h1 : ¬ x = 0 := by omega
    have h2 : x + m = x + (m + 1 + 0) - 1 := by omega
    simp [mev, h1, if_pos h2, cut_pos _ hx]
  · have h1 : ¬ x = 0 := by omega
    have h2 : ¬ x + m = x + (m + 1 + k) - 1 := by omega
    have h3 : x + (m + 1 + k) - x - (m + 1) = k := by omega
    simp [mev, h1, h2, h3, cut_pos _ hx, cut_pos _ hk, List.replicate_succ]
    simp [mev, Nat.add_assoc]

/-- A slot that holds nothing. -/
def Blk.nil (b : Blk α) : Prop := b.size = 0 ∧ b.data = none

theorem slotsFor_ok (pre post : List (Blk α)) (p x m k n : Nat) (hp : p = total pre) (c fr ev nx)
    (hpre : ∀ b ∈ pre, 0 < b.size) :
    ∃ z Z, slotsFor pre.length (p + x) (m + 1) (n + 1) ⟨pre ++ ⟨p, x + (m + 1 + k), none⟩ :: post, c, fr, ev, nx⟩ =
      .ok ((pre ++ cut p x).length,
        ⟨(pre ++ cut p x) ++ z :: (Z ++ (cut (p + x + (m + 1)) k ++ post)), c, fr, ev, nx⟩) ∧
      Z.length = n ∧ z.nil ∧ (∀ y ∈ Z, Blk.nil y) ∧ (pre ++ cut p x = [] → z.pos = 0) := by
  rcases Nat.eq_zero_or_pos x with rfl | hx <;> rcases Nat.eq_zero_or_pos k with rfl | hk
  · rcases n with _ | n
    · refine ⟨⟨p, 0, none⟩, [], ?_, rfl, ⟨rfl, rfl⟩, by simp, ?_⟩
      · simp [mev]
      · rintro h
        obtain rfl : pre = [] := by simpa using h
        simpa using hp
    · refine ⟨⟨0, 0, none⟩, List.replicate n ⟨0, 0, none⟩ ++ [⟨p, 0, none⟩], ?_, by simp, ⟨rfl, rfl⟩, ?_, by simp⟩
      · simp [mev, List.replicate_succ]
      · intro y hy
        simp at hy
        rcases hy with ⟨_, rfl⟩ | rfl <;> exact ⟨rfl, rfl⟩
  all_goals
    refine ⟨⟨0, 0, none⟩, List.replicate n ⟨0, 0, none⟩, ?_, by simp, ⟨rfl, rfl⟩, ?_, by simp⟩
    rotate_left
    · intro y hy
      simp at hy
      rcases hy with ⟨_, rfl⟩; exact ⟨rfl, rfl⟩
  · have : m + 1 < m + 1 + k := by omega
    simp [mev, this, hk, cut_pos, List.replicate_succ]
  · have h1 : ¬ x = 0 := by omega
    have h2 : x + m = x + (m + 1 + 0) - 1 := by omega
    simp [mev, h1, if_pos h2, cut_pos _ hx, List.replicate_succ]
  · have h1 : ¬ x = 0 := by omega
    have h2 : ¬ x + m = x + (m + 1 + k) - 1 := by omega
    have h3 : x + (m + 1 + k) - x - (m + 1) = k := by omega
    have h4 : pre.length + (n + 1) + 1 = pre.length + (n + 2) := by omega
    have h5 : (List.replicate n (⟨0, 0, none⟩ : Blk α) ++ ⟨0, 0, none⟩ :: post)[n]? = some ⟨0, 0, none⟩ := by
      rw [List.getElem?_append_right (by simp)]; simp
    simp [mev, h1, h2, h3, h4, h5, cut_pos _ hx, cut_pos _ hk, List.replicate_succ']
    exact rep_swap n _ _

/-! ### Moving blocks -/

/-- `m` is a block at `p` of the type of `b` that shows `X`. -/
structure Piece (b m : Blk α) (p : Nat) (X : List (Option (Ty × α))) : Prop where
  pos : m.pos = p
  ok : m.ok
  ty : m.ty = b.ty
  cells : m.cells = X

theorem Piece.size {b m : Blk α} {p X} (h : Piece b m p X) : m.size = X.length := by
  rw [← h.cells, cells_length_of_ok h.ok]

@[simp] theorem nil_cells {b : Blk α} (h : b.nil) : b.cells = [] := by
  rcases b with ⟨p, n, d⟩
  obtain ⟨rfl, rfl⟩ := h
  rfl
@[simp] theorem nil_ids {b : Blk α} (h : b.nil) : b.ids = [] := by
  rcases b with ⟨p, n, d⟩
  obtain ⟨rfl, rfl⟩ := h
  rfl

theorem calcPos_ok (TA TB : List (Blk α)) (z : Blk α) (hT : Tile 0 TA) (c fr ev nx) :
    calcPos TA.length ⟨TA ++ z :: TB, c, fr, ev, nx⟩ =
      .ok ((), ⟨TA ++ ⟨total TA, z.size, z.data⟩ :: TB, c, fr, ev, nx⟩) := by
  rcases snoc_cases TA with rfl | ⟨TA, x, rfl⟩
  · simp [mev]
  · simp at hT
    simp [mev, Nat.add_assoc, hT.2.1]

/-- Close the facts about a moved block. -/
macro "piece_tac" : tactic => `(tactic|
  (and_intros
   all_goals first
     | (refine ⟨?_, ?_, ?_⟩
        · intro z hz; (try simp [List.count_append, List.count_cons, List.count_replicate, count_map_some]); (try omega)
        · (try simp); (try omega)
        · intro z; (try simp [List.count_append, List.count_cons]); (try omega)
        done)
     | (refine ⟨?_, ?_, ?_, ?_⟩ <;> first | rfl | (simp; done) | (simp; omega))
     | (intro _; refine ⟨?_, ?_, ?_, ?_⟩ <;> first | rfl | (simp; done) | (simp; omega))))

/-- The first block. -/
theorem moveFirst_ok (SA SB TA TB : List (Blk α)) (b z : Blk α) (off : Nat) (hb : b.ok) (ho : off < b.size)
    (hz : z.nil) (hT : Tile 0 TA) (hz0 : TA = [] → z.pos = 0) (s t : St α) (es : s.blocks = SA ++ b :: SB)
    (et : t.blocks = TA ++ z :: TB) :
    ∃ b' m s' t', moveFirst (b.pos + off) SA.length TA.length s t = .ok (decide (off ≠ 0)) s' t' ∧
      s'.blocks = SA ++ b' :: SB ∧ s'.cur = s.cur ∧ t'.blocks = TA ++ m :: TB ∧ t'.cur = t.cur ∧
      Led s s' [] (b.cells.drop off) ∧ Led t t' (b.cells.drop off) [] ∧
      Piece b m (total TA) (b.cells.drop off) ∧ (off = 0 → b'.nil) ∧
      (off ≠ 0 → Piece b b' b.pos (b.cells.take off)) := by
  rcases s with ⟨bs, c, fr, ev, nx⟩
  rcases t with ⟨bs', c', fr', ev', nx'⟩
  simp only at es et
  subst es et
  rcases z with ⟨zp, zn, zd⟩
  obtain ⟨rfl, rfl⟩ : zn = 0 ∧ zd = none := hz
  rcases head0_cases b off hb ho with ⟨p, m, rfl⟩ | ⟨p, i, ty, va, y, vm, rfl, rfl⟩
  · rcases Nat.eq_zero_or_pos off with rfl | h0
    · refine ⟨⟨p, 0, none⟩, ⟨total TA, m + 1, none⟩, ?_⟩
      simp [moveFirst, movePointer, mev, calcPos_ok _ _ _ hT, Blk.nil]
      piece_tac
    · have h1 : ¬ off = 0 := by omega
      refine ⟨⟨p, off, none⟩, ⟨total TA, m + 1, none⟩, ?_⟩
      by_cases hTA : TA = []
      · subst hTA
        simp at hz0
        subst hz0
        simp [moveFirst, movePointer, mev, calcPos_ok _ _ _ hT, Blk.nil, h1]
        piece_tac
      · have h2 : 0 < TA.length := List.length_pos_iff.2 hTA
        simp [moveFirst, movePointer, mev, calcPos_ok _ _ _ hT, Blk.nil, h1, h2]
        piece_tac
  · rcases va with _ | ⟨w, va⟩
    · refine ⟨⟨p, 0, none⟩, ⟨total TA, vm.length + 1, some ⟨i, ty, y :: vm⟩⟩, ?_⟩
      simp [moveFirst, movePointer, mev, calcPos_ok _ _ _ hT, Blk.nil]
      piece_tac
    · have h3 : va.length + 1 + (vm.length + 1) ≤ va.length + (vm.length + 1) + 1 := by omega
      have h4 : va.length + 1 + (vm.length + 1) - (va.length + 1) = vm.length + 1 := by omega
      refine ⟨⟨p, va.length + 1, some ⟨i, ty, w :: va⟩⟩, ⟨total TA, vm.length + 1, some ⟨nx', ty, y :: vm⟩⟩, ?_⟩
      by_cases hTA : TA = []
      · subst hTA
        simp at hz0
        subst hz0
        simp [moveFirst, movePointer, mev, calcPos_ok _ _ _ hT, Blk.nil, if_pos h3]
        piece_tac
      · have h2 : 0 < TA.length := List.length_pos_iff.2 hTA
        simp [moveFirst, movePointer, mev, calcPos_ok _ _ _ hT, Blk.nil, h2, if_pos h3]
        piece_tac

/-- The last block. -/
theorem moveLast_ok (SA SB TA TB : List (Blk α)) (b z : Blk α) (d : Nat) (hb : b.ok) (hd : d < b.size)
    (hz : z.nil) (hT : Tile 0 TA) (s t : St α) (es : s.blocks = SA ++ b :: SB)
    (et : t.blocks = TA ++ z :: TB) :
    ∃ b' m s' t', moveLast (b.pos + d) SA.length TA.length s t = .ok (decide (d + 1 < b.size)) s' t' ∧
      s'.blocks = SA ++ b' :: SB ∧ s'.cur = s.cur ∧ t'.blocks = TA ++ m :: TB ∧ t'.cur = t.cur ∧
      Led s s' [] (b.cells.take (d + 1)) ∧ Led t t' (b.cells.take (d + 1)) [] ∧
      Piece b m (total TA) (b.cells.take (d + 1)) ∧ (d + 1 = b.size → b'.nil) ∧
      (d + 1 < b.size → Piece b b' (b.pos + (d + 1)) (b.cells.drop (d + 1))) := by
  rcases s with ⟨bs, c, fr, ev, nx⟩
  rcases t with ⟨bs', c', fr', ev', nx'⟩
  simp only at es et
  subst es et
  rcases z with ⟨zp, zn, zd⟩
  obtain ⟨rfl, rfl⟩ : zn = 0 ∧ zd = none := hz
  rcases tail0_cases b d hb hd with ⟨p, k, rfl⟩ | ⟨p, i, ty, y, vd, vb, rfl, rfl⟩
  · rcases Nat.eq_zero_or_pos k with rfl | h0
    · refine ⟨⟨p, 0, none⟩, ⟨total TA, d + 1, none⟩, ?_⟩
      simp [moveLast, movePointer, mev, calcPos_ok _ _ _ hT, Blk.nil]
      piece_tac
    · have h1 : ¬ k = 0 := by omega
      refine ⟨⟨p + (d + 1), k, none⟩, ⟨total TA, d + 1, none⟩, ?_⟩
      simp [moveLast, movePointer, mev, calcPos_ok _ _ _ hT, Blk.nil, h1, h0]
      piece_tac
  · rcases vb with _ | ⟨w, vb⟩
    · refine ⟨⟨p, 0, none⟩, ⟨total TA, vd.length + 1, some ⟨i, ty, y :: vd⟩⟩, ?_⟩
      simp [moveLast, movePointer, mev, calcPos_ok _ _ _ hT, Blk.nil, ← List.map_take]
      piece_tac
    · have h3 : vd.length + 1 ≤ vd.length + (vb.length + 1) + 1 := by omega
      refine ⟨⟨p + (vd.length + 1), vb.length + 1, some ⟨i, ty, w :: vb⟩⟩,
        ⟨total TA, vd.length + 1, some ⟨nx', ty, y :: vd⟩⟩, ?_⟩
      simp [moveLast, movePointer, mev, calcPos_ok _ _ _ hT, Blk.nil, if_pos h3]
      piece_tac

/-- The blocks laid out one after the other from `p` on. -/
def retile : Nat → List (Blk α) → List (Blk α)
  | _, [] => []
  | p, b :: bs => ⟨p, b.size, b.data⟩ :: retile (p + b.size) bs

@[simp] theorem retile_length (M : List (Blk α)) : ∀ p, (retile p M).length = M.length := by
  induction M with
  | nil => intro p; rfl
  | cons b M ih => intro p; simp [retile, ih]
@[simp] theorem retile_total (M : List (Blk α)) : ∀ p, total (retile p M) = total M := by
  induction M with
  | nil => intro p; rfl
  | cons b M ih => intro p; simp [retile, ih]
@[simp] theorem retile_cells (M : List (Blk α)) : ∀ p, cells (retile p M) = cells M := by
  induction M with
  | nil => intro p; rfl
  | cons b M ih => intro p; simp [retile, ih]; rfl
@[simp] theorem retile_ty (M : List (Blk α)) : ∀ p, (retile p M).map Blk.ty = M.map Blk.ty := by
  induction M with
  | nil => intro p; rfl
  | cons b M ih => intro p; simp [retile, ih]; rfl
theorem retile_tile (M : List (Blk α)) : ∀ p, (∀ b ∈ M, b.ok) → Tile p (retile p M) := by
  induction M with
  | nil => intro p _; trivial
  | cons b M ih =>
    intro p h
    exact ⟨rfl, h b (by simp), ih _ (fun x hx => h x (by simp [hx]))⟩

theorem moveMid_ok (M : List (Blk α)) : ∀ (SA SB TA TB Z : List (Blk α)) (p : Nat) (s t : St α),
    Z.length = M.length → (∀ z ∈ Z, Blk.nil z) → (∀ b ∈ M, b.ok) →
    s.blocks = SA ++ (M ++ SB) → t.blocks = TA ++ (Z ++ TB) →
    ∃ M' s' t', moveMid SA.length TA.length M.length p s t = .ok () s' t' ∧
      s'.blocks = SA ++ (M' ++ SB) ∧ s'.cur = s.cur ∧ M'.length = M.length ∧ (∀ y ∈ M', Blk.nil y) ∧
      t'.blocks = TA ++ (retile p M ++ TB) ∧ t'.cur = t.cur ∧
      Led s s' [] (cells M) ∧ Led t t' (cells M) [] := by
  induction M with
  | nil =>
    intro SA SB TA TB Z p s t hl hz hM es et
    obtain rfl : Z = [] := by simpa using hl
    refine ⟨[], s, t, by simp [moveMid, mev], es, rfl, rfl, by simp, et, rfl, ?_, ?_⟩
    · exact ⟨by simp, by omega, by intro; omega⟩
    · exact ⟨by simp, by omega, by intro; omega⟩
  | cons b M ih =>
    intro SA SB TA TB Z p s t hl hz hM es et
    rcases Z with _ | ⟨z, Z⟩
    · simp at hl
    have hzn : z.nil := hz z (by simp)
    have hb : b.ok := hM b (by simp)
    obtain ⟨b', s1, t1, e1, es1, hc1, hb', et1, hd1, l1, l2⟩ : ∃ b' s1 t1,
        moveMid SA.length TA.length (b :: M).length p s t =
          moveMid (SA.length + 1) (TA.length + 1) M.length (p + b.size) s1 t1 ∧
        s1.blocks = SA ++ (b' :: (M ++ SB)) ∧ s1.cur = s.cur ∧ Blk.nil b' ∧
        t1.blocks = TA ++ (⟨p, b.size, b.data⟩ :: (Z ++ TB)) ∧ t1.cur = t.cur ∧
        Led s s1 [] b.cells ∧ Led t t1 b.cells [] := by
      rcases s with ⟨bs, c, fr, ev, nx⟩
      rcases t with ⟨bs', c', fr', ev', nx'⟩
      simp only at es et
      subst es et
      rcases z with ⟨zp, zn, zd⟩
      obtain ⟨rfl, rfl⟩ : zn = 0 ∧ zd = none := hzn
      rcases b with ⟨bp, bn, _ | ⟨i, ty, vs⟩⟩
      · refine ⟨⟨bp, 0, none⟩, ⟨SA ++ ⟨bp, 0, none⟩ :: (M ++ SB), c, fr, ev, nx⟩,
          ⟨TA ++ ⟨p, bn, none⟩ :: (Z ++ TB), c', fr', ev', nx'⟩, ?_⟩
        simp [moveMid, movePointer, mev, Blk.nil]
        piece_tac
      · refine ⟨⟨bp, 0, none⟩, ⟨SA ++ ⟨bp, 0, none⟩ :: (M ++ SB), c, fr, ev ++ [.rel i], nx⟩,
          ⟨TA ++ ⟨p, bn, some ⟨i, ty, vs⟩⟩ :: (Z ++ TB), c', fr', ev' ++ [.acq i], nx'⟩, ?_⟩
        simp [moveMid, movePointer, mev, Blk.nil]
        piece_tac
    obtain ⟨M', s', t', e2, es2, hc2, hl2, hn2, et2, hd2, l3, l4⟩ := ih (SA ++ [b']) SB (TA ++ [⟨p, b.size, b.data⟩]) TB Z
      (p + b.size) s1 t1 (by simpa using hl) (fun z h => hz z (by simp [h])) (fun x h => hM x (by simp [h]))
      (by simpa using es1) (by simpa using et1)
    refine ⟨b' :: M', s', t', ?_, by simpa using es2, by omega, by simp [hl2], ?_, by simpa [retile] using et2,
      by omega, ?_, ?_⟩
    · rw [e1]; simpa using e2
    · intro y hy
      rcases List.mem_cons.1 hy with rfl | hy
      · exact hb'
      · exact hn2 y hy
    · simpa using l1.trans l3
    · simpa using l2.trans l4

end Mdds.Mtv
