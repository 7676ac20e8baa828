import Verif.Mtv.Model
import Mathlib.Data.List.Chain
/-!
Helper definitions and lemmas for multi_type_vector: invariants, evaluation of the
block store primitives on a decomposed block list.
-/
namespace Mdds.Mtv
open Mdds

variable {α β γ : Type}

/-! ### Evaluation of the monad -/

@[simp] theorem bind_apply (x : M α β) (f : β → M α γ) (s : St α) :
    (x >>= f) s = (x s).bind fun p => f p.1 p.2 := rfl
@[simp] theorem mbind_apply (x : M α β) (f : β → M α γ) (s : St α) :
    (M.bind x f) s = (x s).bind fun p => f p.1 p.2 := rfl
@[simp] theorem pure_apply (b : β) (s : St α) : (Pure.pure b : M α β) s = .ok (b, s) := rfl
@[simp] theorem mpure_apply (b : β) (s : St α) : (M.pure b : M α β) s = .ok (b, s) := rfl
@[simp] theorem obind_ok (b : β × St α) (f : β × St α → Res α γ) : Res.bind (.ok b) f = f b := rfl
@[simp] theorem obind_err (e s) (f : β × St α → Res α γ) : Res.bind (.err e s) f = .err e s := rfl
@[simp] theorem obind_ub (f : β × St α → Res α γ) : Res.bind .ub f = .ub := rfl
@[simp] theorem throw_apply (e) (s : St α) : (throw_ e : M α β) s = .err e s := rfl
@[simp] theorem ub_apply (s : St α) : (ub_ : M α β) s = .ub := rfl

/-! ### Evaluation of list primitives -/

section
variable {τ : Type}
@[simp] theorem get_pre (pre l : List τ) (k : Nat) : (pre ++ l)[pre.length + k]? = l[k]? := by
  rw [List.getElem?_append_right (by omega)]; congr 1; omega
@[simp] theorem get_pre0 (pre l : List τ) : (pre ++ l)[pre.length]? = l[0]? := get_pre pre l 0
@[simp] theorem set_pre (pre l : List τ) (k : Nat) (x : τ) :
    (pre ++ l).set (pre.length + k) x = pre ++ l.set k x := by
  rw [List.set_append_right _ _ (by omega)]; congr 2; omega
@[simp] theorem set_pre0 (pre l : List τ) (x : τ) :
    (pre ++ l).set pre.length x = pre ++ l.set 0 x := set_pre pre l 0 x
theorem take_pre (pre l : List τ) (k : Nat) : (pre ++ l).take (pre.length + k) = pre ++ l.take k := by
  rw [List.take_append, List.take_of_length_le (by omega)]; congr 2; omega
theorem drop_pre (pre l : List τ) (k : Nat) : (pre ++ l).drop (pre.length + k) = l.drop k := by
  rw [List.drop_append, List.drop_of_length_le (by omega)]; simp
@[simp] theorem insAt_pre (pre l xs : List τ) (k : Nat) :
    insAt (pre ++ l) (pre.length + k) xs = pre ++ insAt l k xs := by
  simp [insAt, take_pre, drop_pre]
@[simp] theorem insAt_pre0 (pre l xs : List τ) :
    insAt (pre ++ l) pre.length xs = pre ++ insAt l 0 xs := insAt_pre pre l xs 0
@[simp] theorem delAt_pre (pre l : List τ) (k n : Nat) :
    delAt (pre ++ l) (pre.length + k) n = pre ++ delAt l k n := by
  simp [delAt, take_pre, drop_pre, Nat.add_assoc]
@[simp] theorem delAt_pre0 (pre l : List τ) (n : Nat) :
    delAt (pre ++ l) pre.length n = pre ++ delAt l 0 n := delAt_pre pre l 0 n
@[simp] theorem mapFrom_pre (f : τ → τ) (pre l : List τ) (k : Nat) :
    mapFrom f (pre.length + k) (pre ++ l) = pre ++ mapFrom f k l := by
  simp [mapFrom, take_pre, drop_pre]
@[simp] theorem mapFrom_pre0 (f : τ → τ) (pre l : List τ) :
    mapFrom f pre.length (pre ++ l) = pre ++ mapFrom f 0 l := mapFrom_pre f pre l 0
@[simp] theorem dropPre (pre l : List τ) (k : Nat) : (pre ++ l).drop (pre.length + k) = l.drop k :=
  drop_pre pre l k
@[simp] theorem takePre (pre l : List τ) (k : Nat) : (pre ++ l).take (pre.length + k) = pre ++ l.take k :=
  take_pre pre l k

@[simp] theorem insAt_end (l xs : List τ) : insAt l l.length xs = l ++ xs := by simp [insAt]
@[simp] theorem insAt_zero (l xs : List τ) : insAt l 0 xs = xs ++ l := by simp [insAt]
@[simp] theorem insAt_cons (a : τ) (l xs : List τ) (k : Nat) :
    insAt (a :: l) (k + 1) xs = a :: insAt l k xs := by simp [insAt]
@[simp] theorem delAt_zero (l : List τ) (n : Nat) : delAt l 0 n = l.drop n := by simp [delAt]
@[simp] theorem delAt_cons (a : τ) (l : List τ) (k n : Nat) :
    delAt (a :: l) (k + 1) n = a :: delAt l k n := by
  simp [delAt, Nat.add_right_comm]
@[simp] theorem mapFrom_zero (f : τ → τ) (l : List τ) : mapFrom f 0 l = l.map f := by simp [mapFrom]
@[simp] theorem mapFrom_cons (f : τ → τ) (a : τ) (l : List τ) (k : Nat) :
    mapFrom f (k + 1) (a :: l) = a :: mapFrom f k l := by simp [mapFrom]

end

theorem snoc_cases {τ : Type} (l : List τ) : l = [] ∨ ∃ l' a, l = l' ++ [a] := by
  rcases List.eq_nil_or_concat l with h | ⟨l', a, h⟩
  · exact .inl h
  · exact .inr ⟨l', a, by simpa using h⟩

/-! ### Invariants -/

/-- Total number of elements of a block list. -/
def total (bs : List (Blk α)) : Nat := (bs.map Blk.size).sum

/-- A block is well formed: not zero-sized, and a non-empty one holds exactly `size`
values. -/
def Blk.ok (b : Blk α) : Prop := 0 < b.size ∧ ∀ d ∈ b.data, d.vals.length = b.size

/-- The blocks tile the logical positions from `p` on. -/
def Tile (p : Nat) : List (Blk α) → Prop
  | [] => True
  | b :: bs => b.pos = p ∧ b.ok ∧ Tile (p + b.size) bs

/-- No two adjacent blocks have the same type, except types allowed by `S`. -/
def Sep (S : Option Ty → Prop) (bs : List (Blk α)) : Prop :=
  (bs.map Blk.ty).IsChain (fun a b => a = b → S a)

/-- The sequence of optional typed values a block stands for. -/
def Blk.cells (b : Blk α) : List (Option (Ty × α)) :=
  match b.data with
  | none => List.replicate b.size none
  | some d => d.vals.map (fun v => some (d.ty, v))

def cells (bs : List (Blk α)) : List (Option (Ty × α)) := bs.flatMap Blk.cells

def Blk.ids (b : Blk α) : List Nat :=
  match b.data with
  | none => []
  | some d => [d.id]

/-- Identities of the element blocks held. -/
def ids (bs : List (Blk α)) : List Nat := bs.flatMap Blk.ids

/-- How often block `i` was acquired / released. -/
def acqs (i : Nat) (es : List Ev) : Nat := es.count (.acq i)
def rels (i : Nat) (es : List Ev) : Nat := es.count (.rel i)

def Ev.isAcq : Ev → Bool
  | .acq _ => true
  | .rel _ => false
/-- Number of acquired / released events. -/
def nacq (es : List Ev) : Nat := es.countP Ev.isAcq
def nrel (es : List Ev) : Nat := es.countP (fun e => !e.isAcq)

@[simp] theorem total_nil : total ([] : List (Blk α)) = 0 := rfl
@[simp] theorem total_cons (b : Blk α) (bs) : total (b :: bs) = b.size + total bs := by simp [total]
@[simp] theorem total_append (a b : List (Blk α)) : total (a ++ b) = total a + total b := by
  simp [total]
@[simp] theorem cells_nil : cells ([] : List (Blk α)) = [] := rfl
@[simp] theorem cells_cons (b : Blk α) (bs) : cells (b :: bs) = b.cells ++ cells bs := by simp [cells]
@[simp] theorem cells_append (a b : List (Blk α)) : cells (a ++ b) = cells a ++ cells b := by
  simp [cells]



@[simp] theorem ids_nil : ids ([] : List (Blk α)) = [] := rfl
@[simp] theorem ids_cons (b : Blk α) (bs) : ids (b :: bs) = b.ids ++ ids bs := by simp [ids]
@[simp] theorem ids_append (a b : List (Blk α)) : ids (a ++ b) = ids a ++ ids b := by simp [ids]
@[simp] theorem tile_nil (p : Nat) : Tile p ([] : List (Blk α)) := trivial
@[simp] theorem tile_cons (p : Nat) (b : Blk α) (bs) :
    Tile p (b :: bs) ↔ b.pos = p ∧ b.ok ∧ Tile (p + b.size) bs := Iff.rfl
@[simp] theorem tile_append (p : Nat) (a b : List (Blk α)) :
    Tile p (a ++ b) ↔ Tile p a ∧ Tile (p + total a) b := by
  induction a generalizing p with
  | nil => simp
  | cons x xs ih => simp [ih, and_assoc, Nat.add_assoc]

@[simp] theorem cells_mk_none (p n) : (Blk.mk p n none : Blk α).cells = List.replicate n none := rfl
@[simp] theorem cells_mk_some (p n) (d : EB α) :
    (Blk.mk p n (some d)).cells = d.vals.map (fun v => some (d.ty, v)) := rfl


@[simp] theorem ids_mk_none (p n) : (Blk.mk p n none : Blk α).ids = [] := rfl
@[simp] theorem ids_mk_some (p n) (d : EB α) : (Blk.mk p n (some d)).ids = [d.id] := rfl
@[simp] theorem ty_mk_none (p n) : (Blk.mk p n none : Blk α).ty = none := rfl
@[simp] theorem ty_mk_some (p n) (d : EB α) : (Blk.mk p n (some d)).ty = some d.ty := rfl
@[simp] theorem ok_mk_none (p n) : (Blk.mk p n none : Blk α).ok ↔ 0 < n := by simp [Blk.ok]
@[simp] theorem ok_mk_some (p n) (d : EB α) :
    (Blk.mk p n (some d)).ok ↔ 0 < n ∧ d.vals.length = n := by simp [Blk.ok]

@[simp] theorem nacq_append (a b) : nacq (a ++ b) = nacq a + nacq b := by simp [nacq]
@[simp] theorem nrel_append (a b) : nrel (a ++ b) = nrel a + nrel b := by simp [nrel]
@[simp] theorem nacq_nil : nacq [] = 0 := rfl
@[simp] theorem nrel_nil : nrel [] = 0 := rfl
@[simp] theorem nacq_acq (j l) : nacq (.acq j :: l) = nacq l + 1 := by simp [nacq, List.countP_cons, Ev.isAcq]
@[simp] theorem nacq_rel (j l) : nacq (.rel j :: l) = nacq l := by simp [nacq, List.countP_cons, Ev.isAcq]
@[simp] theorem nrel_rel (j l) : nrel (.rel j :: l) = nrel l + 1 := by simp [nrel, List.countP_cons, Ev.isAcq]
@[simp] theorem nrel_acq (j l) : nrel (.acq j :: l) = nrel l := by simp [nrel, List.countP_cons, Ev.isAcq]
@[simp] theorem count_map_some [DecidableEq α] (ty : Ty) (l : List α) (z : Ty × α) :
    (l.map (fun v => some (ty, v))).count (some z) = (l.map (fun v => (ty, v))).count z := by
  induction l with
  | nil => rfl
  | cons a l ih => simp [List.count_cons, ih]
@[simp] theorem acqs_append (i a b) : acqs i (a ++ b) = acqs i a + acqs i b := by simp [acqs]
@[simp] theorem rels_append (i a b) : rels i (a ++ b) = rels i a + rels i b := by simp [rels]
@[simp] theorem acqs_nil (i) : acqs i [] = 0 := rfl
@[simp] theorem rels_nil (i) : rels i [] = 0 := rfl
@[simp] theorem acqs_acq (i j l) : acqs i (.acq j :: l) = (if j = i then 1 else 0) + acqs i l := by
  simp [acqs, List.count_cons, Nat.add_comm]
@[simp] theorem acqs_rel (i j l) : acqs i (.rel j :: l) = acqs i l := by simp [acqs]
@[simp] theorem rels_rel (i j l) : rels i (.rel j :: l) = (if j = i then 1 else 0) + rels i l := by
  simp [rels, List.count_cons, Nat.add_comm]
@[simp] theorem rels_acq (i j l) : rels i (.acq j :: l) = rels i l := by simp [rels]

theorem cells_length_of_ok {b : Blk α} (h : b.ok) : b.cells.length = b.size := by
  unfold Blk.cells
  cases hd : b.data with
  | none => simp
  | some d => simpa using h.2 d (by simp [hd])

theorem tile_cells_length : ∀ {bs : List (Blk α)} {p : Nat}, Tile p bs → (cells bs).length = total bs
  | [], _, _ => rfl
  | b :: bs, p, h => by
    simp [cells_length_of_ok h.2.1, tile_cells_length h.2.2]

theorem tile_eq {bs : List (Blk α)} {p q : Nat} (h : Tile p bs) (e : p = q) : Tile q bs := e ▸ h

/-! ### Adjacency -/

/-- `pre` is separated and may be followed by a block of type `t`. -/
def SL (S : Option Ty → Prop) (pre : List (Blk α)) (t : Option Ty) : Prop :=
  Sep S pre ∧ ∀ a ∈ pre.getLast?, a.ty = t → S t
/-- `post` is separated and may follow a block of type `t`. -/
def SR (S : Option Ty → Prop) (t : Option Ty) (post : List (Blk α)) : Prop :=
  (t :: post.map Blk.ty).IsChain (fun a b => a = b → S a)

@[simp] theorem SL_nil (S) (t) : SL S ([] : List (Blk α)) t := by simp [SL, Sep]
@[simp] theorem SR_nil (S) (t) : SR S t ([] : List (Blk α)) := by simp [SR]
@[simp] theorem SR_cons (S) (t) (b : Blk α) (l) :
    SR S t (b :: l) ↔ (t = b.ty → S t) ∧ SR S b.ty l := by simp [SR]
@[simp] theorem Sep_nil (S) : Sep S ([] : List (Blk α)) := by simp [Sep]
@[simp] theorem Sep_cons (S) (b : Blk α) (l) : Sep S (b :: l) ↔ SR S b.ty l := by simp [Sep, SR]
@[simp] theorem Sep_append (S) (pre : List (Blk α)) (b : Blk α) (l) :
    Sep S (pre ++ b :: l) ↔ SL S pre b.ty ∧ SR S b.ty l := by
  simp only [Sep, SL, SR, List.map_append, List.map_cons, List.isChain_append]
  constructor
  · rintro ⟨h1, h2, h3⟩
    refine ⟨⟨h1, ?_⟩, h2⟩
    intro a ha hab
    have := h3 a.ty (by simp only [List.getLast?_map, Option.mem_def] at *; simp [ha]) b.ty (by simp) hab
    rwa [hab] at this
  · rintro ⟨⟨h1, h3⟩, h2⟩
    refine ⟨h1, h2, ?_⟩
    intro x hx y hy hxy
    simp only [List.getLast?_map, Option.mem_def, Option.map_eq_some_iff] at hx
    obtain ⟨a, ha, rfl⟩ := hx
    simp only [List.head?_cons, Option.mem_def, Option.some.injEq] at hy
    subst hy
    rw [hxy]; exact h3 a ha hxy
@[simp] theorem SL_append (S) (pre : List (Blk α)) (b : Blk α) (t) :
    SL S (pre ++ [b]) t ↔ SL S pre b.ty ∧ (b.ty = t → S t) := by
  rw [SL, Sep_append]; simp

/-- Tail positions moved up. -/
def up (d : Nat) (b : Blk α) : Blk α := { b with pos := b.pos + d }
def down (d : Nat) (b : Blk α) : Blk α := { b with pos := b.pos - d }

@[simp] theorem up_ty (d) (b : Blk α) : (up d b).ty = b.ty := rfl
@[simp] theorem down_ty (d) (b : Blk α) : (down d b).ty = b.ty := rfl
@[simp] theorem SR_up (S t d) (l : List (Blk α)) : SR S t (l.map (up d)) ↔ SR S t l := by
  simp only [SR, List.map_map]; rfl
@[simp] theorem SR_down (S t d) (l : List (Blk α)) : SR S t (l.map (down d)) ↔ SR S t l := by
  simp only [SR, List.map_map]; rfl
@[simp] theorem Sep_up (S d) (l : List (Blk α)) : Sep S (l.map (up d)) ↔ Sep S l := by
  simp only [Sep, List.map_map]; rfl
@[simp] theorem Sep_down (S d) (l : List (Blk α)) : Sep S (l.map (down d)) ↔ Sep S l := by
  simp only [Sep, List.map_map]; rfl
@[simp] theorem total_up (d) (l : List (Blk α)) : total (l.map (up d)) = total l := by
  simp only [total, List.map_map]; rfl
@[simp] theorem total_down (d) (l : List (Blk α)) : total (l.map (down d)) = total l := by
  simp only [total, List.map_map]; rfl
@[simp] theorem cells_up (d) (l : List (Blk α)) : cells (l.map (up d)) = cells l := by
  simp only [cells, List.flatMap_map]; rfl
@[simp] theorem cells_down (d) (l : List (Blk α)) : cells (l.map (down d)) = cells l := by
  simp only [cells, List.flatMap_map]; rfl


@[simp] theorem ids_up (d) (l : List (Blk α)) : ids (l.map (up d)) = ids l := by
  simp only [ids, List.flatMap_map]; rfl
@[simp] theorem ids_down (d) (l : List (Blk α)) : ids (l.map (down d)) = ids l := by
  simp only [ids, List.flatMap_map]; rfl

theorem tile_up {d : Nat} : ∀ {bs : List (Blk α)} {p q : Nat}, Tile p bs → q = p + d → Tile q (bs.map (up d))
  | [], _, _, _, _ => trivial
  | b :: bs, p, q, h, e => by
    obtain ⟨h1, h2, h3⟩ := h
    exact ⟨by simp only [up]; omega, h2, tile_up h3 (by simp only [up]; omega)⟩
theorem tile_down {d : Nat} : ∀ {bs : List (Blk α)} {p q : Nat}, Tile p bs → p = q + d →
    Tile q (bs.map (down d))
  | [], _, _, _, _ => trivial
  | b :: bs, p, q, h, e => by
    obtain ⟨h1, h2, h3⟩ := h
    exact ⟨by simp only [down]; omega, h2, tile_down h3 (by simp only [down]; omega)⟩
theorem tile_all_ge : ∀ {bs : List (Blk α)} {p d : Nat}, Tile p bs → d ≤ p →
    bs.all (fun b => decide (d ≤ b.pos)) = true
  | [], _, _, _, _ => rfl
  | b :: bs, p, d, h, e => by
    obtain ⟨h1, h2, h3⟩ := h
    simp only [List.all_cons, Bool.and_eq_true, decide_eq_true_eq]
    exact ⟨by omega, tile_all_ge h3 (by omega)⟩

end Mdds.Mtv
