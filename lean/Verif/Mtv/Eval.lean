import Verif.Mtv.Attr
import Verif.Mtv.Lemmas
import Verif.Mtv.ApCmd
import Mathlib.Tactic.CasesM
/-!
Evaluation lemmas: each member function applied to a state.  They only fire on
applied terms, so `simp [mev]` runs a member function step by step.
-/
namespace Mdds.Mtv
open Mdds

variable {α β γ : Type}

attribute [mev] bind_apply mbind_apply pure_apply mpure_apply obind_ok obind_err obind_ub
  throw_apply ub_apply

theorem lt_of_get {τ : Type} {l : List τ} {i : Nat} {b : τ} (h : l[i]? = some b) : i < l.length :=
  (List.getElem?_eq_some_iff.1 h).1

/-- Update of slot `i` by `f`. -/
def updB (i : Nat) (f : Blk α → Option (Blk α)) (s : St α) : Res α Unit :=
  match (s.blocks[i]?).bind f with
  | some b => .ok ((), ⟨s.blocks.set i b, s.cur, s.freed, s.evs, s.next⟩)
  | none => .ub

@[mev] theorem getB_ap (i : Nat) (s : St α) : getB i s =
    match s.blocks[i]? with
    | some b => .ok (b, s)
    | none => .ub := rfl

@[mev] theorem nBlocks_ap (s : St α) : nBlocks s = .ok (s.blocks.length, s) := rfl
@[mev] theorem curSize_ap (s : St α) : curSize s = .ok (s.cur, s) := rfl
@[mev] theorem setCurSize_ap (n : Nat) (s : St α) :
    setCurSize n s = .ok ((), ⟨s.blocks, n, s.freed, s.evs, s.next⟩) := rfl

@[mev] theorem putB_ap (i : Nat) (b : Blk α) (s : St α) : putB i b s = updB i (fun _ => some b) s := by
  unfold putB updB
  cases h : s.blocks[i]? with
  | none => rw [if_neg (by rw [List.getElem?_eq_none_iff] at h; omega)]; rfl
  | some c => rw [if_pos (lt_of_get h)]; rfl

@[mev] theorem updB_ap (i : Nat) (f : Blk α → Option (Blk α)) (bs : List (Blk α)) (c fr ev nx) :
    updB i f ⟨bs, c, fr, ev, nx⟩ =
      match (bs[i]?).bind f with
      | some b => .ok ((), ⟨bs.set i b, c, fr, ev, nx⟩)
      | none => .ub := rfl

macro "upd_tac" i:term "," s:term : tactic => `(tactic|
  (cases h : (St.blocks $s)[$i]? with
   | none => simp [getB, updB, h]
   | some b => simp [getB, h, putB_ap, updB]))

@[mev] theorem setSize_ap (i n : Nat) (s : St α) :
    setSize i n s = updB i (fun b => some ⟨b.pos, n, b.data⟩) s := by
  unfold setSize; upd_tac i, s
@[mev] theorem addSize_ap (i n : Nat) (s : St α) :
    addSize i n s = updB i (fun b => some ⟨b.pos, b.size + n, b.data⟩) s := by
  unfold addSize; upd_tac i, s
@[mev] theorem subSize_ap (i n : Nat) (s : St α) :
    subSize i n s = updB i (fun b => if n ≤ b.size then some ⟨b.pos, b.size - n, b.data⟩ else none) s := by
  unfold subSize
  cases h : s.blocks[i]? with
  | none => simp [getB, updB, h]
  | some b =>
    by_cases hn : n ≤ b.size
    · simp [getB, h, putB_ap, updB, hn]
    · simp [getB, h, updB, hn]
@[mev] theorem setPos_ap (i n : Nat) (s : St α) :
    setPos i n s = updB i (fun b => some ⟨n, b.size, b.data⟩) s := by
  unfold setPos; upd_tac i, s
@[mev] theorem addPos_ap (i n : Nat) (s : St α) :
    addPos i n s = updB i (fun b => some ⟨b.pos + n, b.size, b.data⟩) s := by
  unfold addPos; upd_tac i, s
@[mev] theorem subPos_ap (i n : Nat) (s : St α) :
    subPos i n s = updB i (fun b => if n ≤ b.pos then some ⟨b.pos - n, b.size, b.data⟩ else none) s := by
  unfold subPos
  cases h : s.blocks[i]? with
  | none => simp [getB, updB, h]
  | some b =>
    by_cases hn : n ≤ b.pos
    · simp [getB, h, putB_ap, updB, hn]
    · simp [getB, h, updB, hn]
@[mev] theorem setData_ap (i : Nat) (d : Option (EB α)) (s : St α) :
    setData i d s = updB i (fun b => some ⟨b.pos, b.size, d⟩) s := by
  unfold setData; upd_tac i, s

@[mev] theorem insB_ap (i : Nat) (xs : List (Blk α)) (bs c fr ev nx) :
    insB i xs ⟨bs, c, fr, ev, nx⟩ =
      if i ≤ bs.length then .ok ((), ⟨insAt bs i xs, c, fr, ev, nx⟩) else .ub := rfl
@[mev] theorem insZ_ap (i n : Nat) (s : St α) :
    insZ i n s = insB i (List.replicate n ⟨0, 0, none⟩) s := rfl
@[mev] theorem pushB_ap (b : Blk α) (s : St α) : pushB b s = insB s.blocks.length [b] s := rfl
@[mev] theorem delB_ap (i n : Nat) (bs : List (Blk α)) (c fr ev nx) :
    delB i n ⟨bs, c, fr, ev, nx⟩ =
      if i + n ≤ bs.length then .ok ((), ⟨delAt bs i n, c, fr, ev, nx⟩) else .ub := rfl
@[mev] theorem popB_ap (s : St α) :
    popB s = if s.blocks.length = 0 then .ub else delB (s.blocks.length - 1) 1 s := by
  unfold popB
  simp only [bind_apply, nBlocks, obind_ok]
  split <;> rfl
@[mev] theorem calcPos_zero (s : St α) : calcPos 0 s = setPos 0 0 s := rfl
@[mev] theorem calcPos_succ (j : Nat) (s : St α) :
    calcPos (j + 1) s = (getB j s).bind fun p => setPos (j + 1) (p.1.pos + p.1.size) p.2 := rfl
theorem calcPos_add (n k : Nat) (s : St α) :
    calcPos (n + (k + 1)) s =
      (getB (n + k) s).bind fun p => setPos (n + (k + 1)) (p.1.pos + p.1.size) p.2 := rfl
@[mev] theorem calcPos_2 (n : Nat) (s : St α) :
    calcPos (n + 2) s = (getB (n + 1) s).bind fun p => setPos (n + 2) (p.1.pos + p.1.size) p.2 := rfl
@[mev] theorem calcPos_3 (n : Nat) (s : St α) :
    calcPos (n + 3) s = (getB (n + 2) s).bind fun p => setPos (n + 3) (p.1.pos + p.1.size) p.2 := rfl
@[mev] theorem calcPos_4 (n : Nat) (s : St α) :
    calcPos (n + 4) s = (getB (n + 3) s).bind fun p => setPos (n + 4) (p.1.pos + p.1.size) p.2 := rfl
@[mev] theorem swapB_ap (i j : Nat) (s : St α) :
    swapB i j s = (getB i s).bind fun a => (getB j a.2).bind fun b =>
      (putB i b.1 b.2).bind fun u => putB j a.1 u.2 := rfl
@[mev] theorem shiftUp_ap (i d : Nat) (bs : List (Blk α)) (c fr ev nx) :
    shiftUp i d ⟨bs, c, fr, ev, nx⟩ = .ok ((), ⟨mapFrom (up d) i bs, c, fr, ev, nx⟩) := rfl
/-- All positions are at least `d`. -/
def AllGe (d : Nat) (bs : List (Blk α)) : Prop := ∀ b ∈ bs, d ≤ b.pos
@[mev] theorem allGe_nil (d : Nat) : AllGe d ([] : List (Blk α)) = True := by simp [AllGe]
@[mev] theorem allGe_cons (d p n e) (bs : List (Blk α)) :
    AllGe d (⟨p, n, e⟩ :: bs) = (d ≤ p ∧ AllGe d bs) := by simp [AllGe]
instance (d : Nat) (bs : List (Blk α)) : Decidable (AllGe d bs) := by unfold AllGe; infer_instance
@[mev] theorem shiftDown_ap (i d : Nat) (bs : List (Blk α)) (c fr ev nx) :
    shiftDown i d ⟨bs, c, fr, ev, nx⟩ =
      if AllGe d (bs.drop i) then
        .ok ((), ⟨mapFrom (down d) i bs, c, fr, ev, nx⟩) else .ub := by
  unfold shiftDown AllGe
  simp [mapFrom]
  rfl

@[mev] theorem free_ap (ty : Ty) (xs : List α) (bs c fr ev nx) :
    free ty xs ⟨bs, c, fr, ev, nx⟩ = .ok ((), ⟨bs, c, fr ++ xs.map (fun v => (ty, v)), ev, nx⟩) := rfl
@[mev] theorem acquired_ap (d : EB α) (bs c fr ev nx) :
    acquired d ⟨bs, c, fr, ev, nx⟩ = .ok ((), ⟨bs, c, fr, ev ++ [.acq d.id], nx⟩) := rfl
@[mev] theorem released_ap (d : EB α) (bs c fr ev nx) :
    released d ⟨bs, c, fr, ev, nx⟩ = .ok ((), ⟨bs, c, fr, ev ++ [.rel d.id], nx⟩) := rfl
@[mev] theorem newEB_ap (ty : Ty) (vs : List α) (bs c fr ev nx) :
    newEB ty vs ⟨bs, c, fr, ev, nx⟩ = .ok (⟨nx, ty, vs⟩, ⟨bs, c, fr, ev, nx + 1⟩) := rfl
@[mev] theorem deleteBlock_none (s : St α) : deleteBlock none s = .ok ((), s) := rfl
@[mev] theorem deleteBlock_some (d : EB α) (s : St α) : deleteBlock (some d) s = free d.ty d.vals s := rfl

@[mev] theorem deref_ap (i : Nat) (s : St α) : deref i s =
    match (s.blocks[i]?).bind Blk.data with
    | some d => .ok (d, s)
    | none => .ub := by
  unfold deref
  cases h : s.blocks[i]? with
  | none => simp [getB, h]
  | some b => cases h2 : b.data <;> simp [getB, h, h2]

@[mev] theorem putVals_ap (i : Nat) (vs : List α) (s : St α) :
    putVals i vs s = updB i (fun b => b.data.map fun d => ⟨b.pos, b.size, some ⟨d.id, d.ty, vs⟩⟩) s := by
  unfold putVals
  cases h : s.blocks[i]? with
  | none => simp [getB, updB, h]
  | some b => cases h2 : b.data <;> simp [getB, h, h2, putB_ap, updB]

@[mev] theorem overwrite_ap (i off len : Nat) (s : St α) : overwrite i off len s =
    (deref i s).bind fun p =>
      if off + len ≤ p.1.vals.length then free p.1.ty ((p.1.vals.drop off).take len) p.2
      else if p.1.ty.managed then .ub else .ok ((), p.2) := by
  unfold overwrite
  simp only [bind_apply]
  congr 1; funext p
  split
  · rfl
  · split <;> rfl

macro "vals_tac" : tactic => `(tactic|
  (simp only [bind_apply]; congr 1; funext p; split <;> rfl))

@[mev] theorem eraseVals_ap (i off len : Nat) (s : St α) : eraseVals i off len s =
    (deref i s).bind fun p =>
      if off + len ≤ p.1.vals.length then putVals i (delAt p.1.vals off len) p.2 else .ub := by
  unfold eraseVals; vals_tac
@[mev] theorem shrinkVals_ap (i n : Nat) (s : St α) : shrinkVals i n s =
    (deref i s).bind fun p =>
      if n ≤ p.1.vals.length then putVals i (p.1.vals.take n) p.2 else .ub := by
  unfold shrinkVals; vals_tac
@[mev] theorem setVals_ap (i off : Nat) (ty : Ty) (vs : List α) (s : St α) : setVals i off ty vs s =
    (deref i s).bind fun p =>
      if p.1.ty = ty ∧ off + vs.length ≤ p.1.vals.length then
        putVals i (p.1.vals.take off ++ vs ++ p.1.vals.drop (off + vs.length)) p.2 else .ub := by
  unfold setVals; vals_tac
@[mev] theorem appendVals_ap (i : Nat) (ty : Ty) (vs : List α) (s : St α) : appendVals i ty vs s =
    (deref i s).bind fun p => if p.1.ty = ty then putVals i (p.1.vals ++ vs) p.2 else .ub := by
  unfold appendVals; vals_tac
@[mev] theorem prependVals_ap (i : Nat) (ty : Ty) (vs : List α) (s : St α) : prependVals i ty vs s =
    (deref i s).bind fun p => if p.1.ty = ty then putVals i (vs ++ p.1.vals) p.2 else .ub := by
  unfold prependVals; vals_tac
@[mev] theorem insertVals_ap (i off : Nat) (ty : Ty) (vs : List α) (s : St α) : insertVals i off ty vs s =
    (deref i s).bind fun p =>
      if p.1.ty = ty ∧ off ≤ p.1.vals.length then putVals i (insAt p.1.vals off vs) p.2 else .ub := by
  unfold insertVals; vals_tac
@[mev] theorem assignVals_ap (i : Nat) (ty : Ty) (vs : List α) (s : St α) : assignVals i ty vs s =
    (deref i s).bind fun p => if p.1.ty = ty then putVals i vs p.2 else .ub := by
  unfold assignVals; vals_tac
@[mev] theorem rangeOf_ap (j b n : Nat) (ty : Ty) (s : St α) : rangeOf j b n ty s =
    (deref j s).bind fun p =>
      if p.1.ty = ty ∧ b + n ≤ p.1.vals.length then .ok ((p.1.vals.drop b).take n, p.2) else .ub := by
  unfold rangeOf; vals_tac
@[mev] theorem assignFrom_ap (i j b n : Nat) (s : St α) : assignFrom i j b n s =
    (deref i s).bind fun p => (rangeOf j b n p.1.ty p.2).bind fun q => putVals i q.1 q.2 := rfl
@[mev] theorem appendFrom_ap (i j b n : Nat) (s : St α) : appendFrom i j b n s =
    (deref i s).bind fun p => (rangeOf j b n p.1.ty p.2).bind fun q =>
      putVals i (p.1.vals ++ q.1) q.2 := rfl
@[mev] theorem prependFrom_ap (i j b n : Nat) (s : St α) : prependFrom i j b n s =
    (deref i s).bind fun p => (rangeOf j b n p.1.ty p.2).bind fun q =>
      putVals i (q.1 ++ p.1.vals) q.2 := rfl
@[mev] theorem appendBlock_ap (i j : Nat) (s : St α) : appendBlock i j s =
    (deref i s).bind fun p => (deref j p.2).bind fun q =>
      if p.1.ty = q.1.ty then putVals i (p.1.vals ++ q.1.vals) q.2 else .ub := by
  unfold appendBlock
  simp only [bind_apply]; congr 1; funext p; congr 1; funext q; split <;> rfl

@[mev] theorem deleteElementBlock_ap (i : Nat) (s : St α) : deleteElementBlock i s =
    (getB i s).bind fun p =>
      match p.1.data with
      | none => .ok ((), p.2)
      | some d => (released d p.2).bind fun u => (free d.ty d.vals u.2).bind fun w => setData i none w.2 := by
  unfold deleteElementBlock
  simp only [bind_apply]; congr 1; funext p; cases p.1.data <;> rfl

theorem deleteElementBlocks_zero (i : Nat) (s : St α) : deleteElementBlocks i 0 s = .ok ((), s) := rfl
theorem deleteElementBlocks_succ (i n : Nat) (s : St α) : deleteElementBlocks i (n + 1) s =
    (deleteElementBlock i s).bind fun p => deleteElementBlocks (i + 1) n p.2 := rfl

@[mev] theorem isPrevOfType_zero (cat) (s : St α) : isPrevOfType 0 cat s = .ok (false, s) := rfl
@[mev] theorem isPrevOfType_succ (j : Nat) (cat) (s : St α) : isPrevOfType (j + 1) cat s =
    (getB j s).bind fun p => .ok (decide (cat = p.1.ty), p.2) := rfl
@[mev] theorem isNextOfType_ap (i : Nat) (cat) (s : St α) : isNextOfType i cat s =
    if i + 1 = s.blocks.length then .ok (false, s)
    else (getB (i + 1) s).bind fun p => .ok (decide (cat = p.1.ty), p.2) := by
  unfold isNextOfType
  simp only [bind_apply, nBlocks, obind_ok]; split <;> rfl

@[mev] theorem createNew_ap (i : Nat) (ty : Ty) (x : α) (s : St α) :
    createNewBlockWithNewCell i ty x s =
      (getB i s).bind fun p =>
        match p.1.data with
        | some d => (released d p.2).bind fun u => (free d.ty d.vals u.2).bind fun w =>
            (newEB ty [] w.2).bind fun e => (setData i (some e.1) e.2).bind fun v =>
            (acquired e.1 v.2).bind fun z => appendVals i ty [x] z.2
        | none => (newEB ty [] p.2).bind fun e => (setData i (some e.1) e.2).bind fun v =>
            (acquired e.1 v.2).bind fun z => appendVals i ty [x] z.2 := by
  unfold createNewBlockWithNewCell
  simp only [bind_apply]; congr 1; funext p; cases p.1.data <;> rfl

@[mev] theorem appendCell_ap (i : Nat) (ty : Ty) (x : α) (s : St α) :
    appendCellToBlock i ty x s = (addSize i 1 s).bind fun p => appendVals i ty [x] p.2 := rfl

@[mev] theorem one_add (n : Nat) : 1 + n = n + 1 := Nat.add_comm 1 n
attribute [mev] Nat.add_sub_add_left List.getElem?_cons_zero
@[mev] theorem two_add_len {τ : Type} (l : List τ) : 2 + l.length = l.length + 2 := Nat.add_comm 2 _
@[mev] theorem two_add_len' {τ : Type} (l : List τ) (n : Nat) : 2 + (l.length + n) = l.length + (2 + n) := by omega
@[mev] theorem le_ar (a b n : Nat) : n ≤ a + (b + n) := by omega
@[mev] theorem sub_one_sub (x y : Nat) : x - 1 - y = x - (y + 1) := by omega
@[mev] theorem sub_ar (a b n : Nat) : a + (b + n) - n = a + b := by omega

/-! ### Effects -/

/-- The outcome is a normal return satisfying `P`. -/
def Runs (o : Res α β) (P : β → St α → Prop) : Prop := ∃ r s', o = .ok (r, s') ∧ P r s'

@[mev] theorem runs_ok (r : β) (s' : St α) (P : β → St α → Prop) : Runs (.ok (r, s')) P ↔ P r s' := by
  constructor
  · rintro ⟨r', s'', h, hp⟩
    cases h; exact hp
  · intro h; exact ⟨r, s', rfl, h⟩
@[mev] theorem runs_ub (P : β → St α → Prop) : Runs (.ub) P ↔ False := by
  simp [Runs]
@[mev] theorem runs_err (e s) (P : β → St α → Prop) : Runs (.err e s) P ↔ False := by
  simp [Runs]
theorem Runs.bind {o : Res α β} {P : β → St α → Prop} {f : β × St α → Res α γ}
    {Q : γ → St α → Prop} (h : Runs o P) (hf : ∀ r s', P r s' → Runs (f (r, s')) Q) :
    Runs (o.bind f) Q := by
  obtain ⟨r, s', rfl, hp⟩ := h
  exact hf r s' hp
theorem Runs.imp {o : Res α β} {P Q : β → St α → Prop} (h : Runs o P)
    (hf : ∀ r s', P r s' → Q r s') : Runs o Q := by
  obtain ⟨r, s', e, hp⟩ := h
  exact ⟨r, s', e, hf r s' hp⟩

/-- Effect of a call on the state: `s'` is well formed and shows `L`.  If `lp`, then
with respect to `s` every managed value is either still stored or was destroyed,
each exactly once (`ins` were handed in, `outs` handed out).  The number of events
matches the change of the number of held blocks; if `ep`, also block by block. -/
structure Eff [DecidableEq α] (S : Option Ty → Prop) (lp ep : Prop) (s s' : St α)
    (L : List (Option (Ty × α))) (ins outs : List (Ty × α)) : Prop where
  tile : Tile 0 s'.blocks
  cur : s'.cur = total s'.blocks
  sep : Sep S s'.blocks
  cells : cells s'.blocks = L
  led : lp → ∀ z : Ty × α, z.1.managed = true →
    s'.freed.count z + (Mtv.cells s'.blocks).count (some z) + outs.count z
      = s.freed.count z + (Mtv.cells s.blocks).count (some z) + ins.count z
  evn : nacq s'.evs + nrel s.evs + (ids s.blocks).length
      = nacq s.evs + nrel s'.evs + (ids s'.blocks).length
  ev : ep → ∀ i, acqs i s'.evs + rels i s.evs + (ids s.blocks).count i
      = acqs i s.evs + rels i s'.evs + (ids s'.blocks).count i

theorem Eff.mono [DecidableEq α] {S : Option Ty → Prop} {lp ep lp' ep' : Prop} {s s' : St α} {L ins outs}
    (h : Eff S lp ep s s' L ins outs) (h1 : lp' → lp) (h2 : ep' → ep) : Eff S lp' ep' s s' L ins outs :=
  ⟨h.tile, h.cur, h.sep, h.cells, fun a => h.led (h1 a), h.evn, fun a => h.ev (h2 a)⟩

/-- Block `r` of `s` contains logical position `pos`. -/
def Holds (s : St α) (r pos : Nat) : Prop :=
  ∃ b, s.blocks[r]? = some b ∧ b.pos ≤ pos ∧ pos < b.pos + b.size

theorem holds_mk (bs : List (Blk α)) (c fr ev nx r pos) :
    Holds ⟨bs, c, fr, ev, nx⟩ r pos ↔ ∃ b, bs[r]? = some b ∧ b.pos ≤ pos ∧ pos < b.pos + b.size := Iff.rfl

/-- Linear arithmetic after simplification. -/
theorem rep_app {τ : Type} (n m : Nat) (a : τ) (l : List τ) :
    List.replicate n a ++ (List.replicate m a ++ l) = List.replicate (n + m) a ++ l := by
  rw [List.replicate_add, List.append_assoc]
theorem count_unm [DecidableEq α] {t : Ty} {z : Ty × α} (h : t.managed = false) (hz : z.1.managed = true)
    (l : List α) : (l.map (fun v => (t, v))).count z = 0 := by
  rw [List.count_eq_zero]
  intro hm
  obtain ⟨v, _, e⟩ := List.mem_map.1 hm
  subst e; simp [h] at hz
theorem eq_unm {t : Ty} {z : Ty × α} (h : t.managed = false) (hz : z.1.managed = true) (v : α) :
    ((t, v) = z) ↔ False := by
  constructor
  · intro e; subst e; simp [h] at hz
  · exact False.elim

macro "arith_tac" : tactic => `(tactic|
  first | omega | (simp; done) | (simp; omega))

/-- Close the parts of an `Eff` goal on a concrete final state. -/
macro "eff_tac" : tactic => `(tactic|
  (refine ⟨?_, ?_, ?_, ?_, ?_, ?_, ?_⟩
   · simp (config := { failIfUnchanged := false }) only [tile_append, tile_cons, tile_nil, ok_mk_none, ok_mk_some,
       List.length_append, List.length_cons, List.length_nil, List.length_map, and_true, true_and,
       total_append, total_cons, total_nil, Nat.zero_add, List.append_assoc, List.cons_append, List.nil_append]
     and_intros <;> first
       | assumption
       | omega
       | exact tile_eq (by assumption) (by arith_tac)
       | exact tile_up (by assumption) (by arith_tac)
       | exact tile_down (by assumption) (by arith_tac)
   · arith_tac
   · clear_arith
     simp (config := { failIfUnchanged := false }) [*] at *
     first | done | (simp_all; done) | grind
   · first | rfl | (simp; done) | (simp [rep_app]; done) | (simp [rep_app]; omega) | (simp [List.replicate_add]; done) | (simp [List.replicate_add, List.replicate_succ]; done) | (simp; omega) | (simp [rep_app]; done) | (simp [rep_app]; omega) | (simp [List.replicate_add, List.replicate_succ]; omega)
   · intro hlp z hz; (try exact hlp.elim); (try simp [List.count_append, List.count_cons, List.count_replicate, count_map_some]); (try omega); try (simp [count_unm hlp hz, eq_unm hlp hz]; omega)
   · (try simp); try omega
   · intro hep z; (try exact hep.elim); (try simp [List.count_append, List.count_cons]); try omega))

end Mdds.Mtv
