import Verif.Mtv.CowSpec
import Verif.Mtv.PairHistory
/-!
# multi_type_vector: lemmas on sharing
-/

namespace Mdds.Mtv.Cow

set_option linter.unusedSectionVars false
set_option linter.unusedVariables false

variable {α : Type} [DecidableEq α]

/-! ### Lists -/

theorem count_flatMap_set {τ : Type} (f : τ → List Nat) (x y : τ) (a : Nat) : ∀ (l : List τ) (i : Nat), l[i]? = some y →
    ((l.set i x).flatMap f).count a + (f y).count a = (l.flatMap f).count a + (f x).count a := by
  intro l
  induction l with
  | nil => intro i h; simp at h
  | cons z l ih =>
    intro i h
    cases i with
    | zero => simp at h; subst h; simp; omega
    | succ i => simp at h; have := ih i h; simp; omega

theorem countP_set {τ : Type} (p : τ → Bool) (x y : τ) : ∀ (l : List τ) (i : Nat), l[i]? = some y →
    (l.set i x).countP p + (if p y then 1 else 0) = l.countP p + (if p x then 1 else 0) := by
  intro l
  induction l with
  | nil => intro i h; simp at h
  | cons z l ih =>
    intro i h
    cases i with
    | zero => simp at h; subst h; simp [List.countP_cons]; omega
    | succ i => simp at h; have := ih i h; simp [List.countP_cons]; omega

theorem count_le_flatMap {τ : Type} (f : τ → List Nat) (y : τ) (a : Nat) : ∀ (l : List τ) (i : Nat), l[i]? = some y →
    (f y).count a ≤ (l.flatMap f).count a := by
  intro l
  induction l with
  | nil => intro i h; simp at h
  | cons z l ih =>
    intro i h
    cases i with
    | zero => simp at h; subst h; simp
    | succ i => simp at h; have := ih i h; simp; omega

theorem count_le_flatMap2 {τ : Type} (f : τ → List Nat) (x y : τ) (a : Nat) : ∀ (l : List τ) (i j : Nat), i ≠ j →
    l[i]? = some x → l[j]? = some y → (f x).count a + (f y).count a ≤ (l.flatMap f).count a := by
  intro l
  induction l with
  | nil => intro i j _ h; simp at h
  | cons z l ih =>
    intro i j hij h1 h2
    cases i with
    | zero =>
      cases j with
      | zero => exact absurd rfl hij
      | succ j =>
        simp at h1 h2; subst h1
        have := count_le_flatMap f y a l j h2
        simp; omega
    | succ i =>
      cases j with
      | zero =>
        simp at h1 h2; subst h2
        have := count_le_flatMap f x a l i h1
        simp; omega
      | succ j =>
        simp at h1 h2
        have := ih i j (by omega) h1 h2
        simp; omega

theorem join_some {τ : Type} {l : List (Option τ)} {i : Nat} {x : τ} : l[i]?.join = some x ↔ l[i]? = some (some x) := by
  rcases h : l[i]? with _ | (_ | y) <;> simp

theorem at_set {τ : Type} (l : List (Option τ)) (i j : Nat) (x : Option τ) (h : i < l.length) :
    (l.set i x)[j]?.join = if i = j then x else l[j]?.join := by
  rw [List.getElem?_set]
  split <;> simp_all

theorem at_append {τ : Type} (l : List (Option τ)) (j : Nat) (x : Option τ) :
    (l ++ [x])[j]?.join = if j = l.length then x else l[j]?.join := by
  rcases Nat.lt_trichotomy j l.length with h | h | h
  · rw [List.getElem?_append_left h, if_neg (by omega)]
  · subst h; simp
  · rw [if_neg (by omega), List.getElem?_eq_none (by simp; omega), List.getElem?_eq_none (by omega)]

theorem at_lt {τ : Type} {l : List (Option τ)} {i : Nat} {x : τ} (h : l[i]?.join = some x) : i < l.length := by
  rw [join_some] at h
  exact (List.getElem?_eq_some_iff.1 h).1

/-! ### The heap -/

theorem freeAll_ok : ∀ (as : List Nat) (h : Heap α), (∀ a, as.count a ≤ if (h a).isSome then 1 else 0) →
    ∃ h', freeAll as h = some h' ∧ ∀ a, h' a = if a ∈ as then none else h a := by
  intro as
  induction as with
  | nil => intro h _; exact ⟨h, rfl, by simp⟩
  | cons b as ih =>
    intro h hc
    have hb : (h b).isSome := by
      by_contra hn
      have := hc b
      simp [hn] at this
    obtain ⟨h', e, hh⟩ := ih (upd h b none) (by
      intro a
      have := hc a
      by_cases hab : a = b
      · subst hab; simp [hb] at this; simp [upd, this]
      · rw [List.count_cons_of_ne (fun e => hab e.symm)] at this
        simpa [upd, hab] using this)
    refine ⟨h', by simp [freeAll, hb, e], fun a => ?_⟩
    rw [hh a]
    by_cases hab : a = b
    · subst hab; simp [upd]
    · simp [upd, hab]

theorem loadBlocks_congr {h h' : Heap α} : ∀ (xs : List Slot), (∀ a ∈ addrs xs, h' a = h a) →
    loadBlocks h' xs = loadBlocks h xs := by
  intro xs
  induction xs with
  | nil => intro _; rfl
  | cons x xs ih =>
    intro hh
    rcases x with ⟨p, n, _ | a⟩
    · simp [loadBlocks, ih (by simpa [addrs] using hh)]
    · have h1 : h' a = h a := hh a (by simp [addrs])
      have h2 := ih (fun b hb => hh b (by simp [addrs] at hb ⊢; exact Or.inr hb))
      simp [loadBlocks, h1, h2]

/-- A slot without the address of its block. -/
def strip (b : Blk α) : Nat × Nat × Option (Ty × List α) := (b.pos, b.size, b.data.map fun d => (d.ty, d.vals))

theorem allocAll_ok : ∀ (bs : List (Blk α)) (n : Nat) (h : Heap α), (∀ a, n ≤ a → h a = none) →
    ∃ xs m h', allocAll bs n h = (xs, m, h') ∧ n ≤ m ∧ (∀ a, a < n → h' a = h a) ∧ (∀ a, m ≤ a → h' a = none) ∧
      (∀ a, n ≤ a → a < m → (h' a).isSome) ∧ (∀ a, (addrs xs).count a = if n ≤ a ∧ a < m then 1 else 0) ∧
      (addrs xs).length = (ids bs).length ∧
      ∃ bs', loadBlocks h' xs = some bs' ∧ bs'.map strip = bs.map strip := by
  intro bs
  induction bs with
  | nil =>
    intro n h hf
    refine ⟨[], n, h, rfl, le_refl _, fun _ _ => rfl, hf, fun a _ _ => by omega, fun a => ?_, rfl, [], rfl, rfl⟩
    rw [if_neg (by omega)]; rfl
  | cons b bs ih =>
    intro n h hf
    rcases b with ⟨p, k, _ | d⟩
    · obtain ⟨xs, m, h', e, h1, h2, h3, h4, h5, h6, bs', h7, h8⟩ := ih n h hf
      refine ⟨⟨p, k, none⟩ :: xs, m, h', by simp [allocAll, e], h1, h2, h3, h4, ?_, ?_, ⟨p, k, none⟩ :: bs', ?_, ?_⟩
      · intro a; simpa [addrs] using h5 a
      · simpa [addrs, ids, Blk.ids] using h6
      · simp [loadBlocks, h7]
      · simp [h8, strip]
    · obtain ⟨xs, m, h', e, h1, h2, h3, h4, h5, h6, bs', h7, h8⟩ := ih (n + 1) (upd h n (some (d.ty, d.vals))) (by
        intro a ha; simp [upd, show a ≠ n by omega, hf a (by omega)])
      have hn : h' n = some (d.ty, d.vals) := by rw [h2 n (by omega)]; simp [upd]
      refine ⟨⟨p, k, some n⟩ :: xs, m, h', by simp [allocAll, e], by omega, ?_, h3, ?_, ?_, ?_, ⟨p, k, some ⟨n, d.ty, d.vals⟩⟩ :: bs', ?_, ?_⟩
      · intro a ha; rw [h2 a (by omega)]; simp [upd, show a ≠ n by omega]
      · intro a ha hb
        by_cases hc : a = n
        · subst hc; rw [hn]; rfl
        · exact h4 a (by omega) hb
      · intro a
        have := h5 a
        have e1 : addrs (⟨p, k, some n⟩ :: xs) = n :: addrs xs := by simp [addrs]
        rw [e1, List.count_cons, this]
        by_cases hc : n = a
        · subst hc
          rw [if_neg (by omega), if_pos (by simp), if_pos (by omega)]
        · rw [if_neg (c := (n == a) = true) (by simpa using hc)]
          by_cases hd : n + 1 ≤ a ∧ a < m
          · rw [if_pos hd, if_pos (by omega)]
          · rw [if_neg hd, if_neg (by omega)]
      · have e1 : addrs (⟨p, k, some n⟩ :: xs) = n :: addrs xs := by simp [addrs]
        rw [e1]; simp [ids, Blk.ids] at h6 ⊢; omega
      · simp [loadBlocks, hn, h7]
      · simp [h8, strip]

theorem strip_cells {bs bs' : List (Blk α)} : bs'.map strip = bs.map strip → cells bs' = cells bs := by
  induction bs generalizing bs' with
  | nil => intro h; simp at h; subst h; rfl
  | cons b bs ih =>
    intro h
    cases bs' with
    | nil => simp at h
    | cons c bs' =>
      simp only [List.map_cons, List.cons.injEq] at h
      have := ih h.2
      have h1 := h.1
      rcases b with ⟨p, n, _ | d⟩ <;> rcases c with ⟨q, m, _ | f⟩ <;> simp [strip] at h1
      · simp [cells, Blk.cells] at this ⊢; simp [h1, this]
      · obtain ⟨-, -, h2, h3⟩ := h1
        simp [cells, Blk.cells] at this ⊢; simp [h2, h3, this]

theorem strip_total {bs bs' : List (Blk α)} : bs'.map strip = bs.map strip → total bs' = total bs := by
  induction bs generalizing bs' with
  | nil => intro h; simp at h; subst h; rfl
  | cons b bs ih =>
    intro h
    cases bs' with
    | nil => simp at h
    | cons c bs' =>
      simp only [List.map_cons, List.cons.injEq] at h
      have := ih h.2
      have h1 := h.1
      simp [strip] at h1
      simp [h1.2.1, this]

theorem strip_tile {bs bs' : List (Blk α)} : ∀ p, bs'.map strip = bs.map strip → Tile p bs → Tile p bs' := by
  induction bs generalizing bs' with
  | nil => intro p h _; simp at h; subst h; trivial
  | cons b bs ih =>
    intro p h ht
    cases bs' with
    | nil => simp at h
    | cons c bs' =>
      simp only [List.map_cons, List.cons.injEq] at h
      obtain ⟨t1, t2, t3⟩ := ht
      have h1 := h.1
      rcases b with ⟨q, n, _ | d⟩ <;> rcases c with ⟨q', m, _ | f⟩ <;> simp [strip] at h1
      · obtain ⟨rfl, rfl⟩ := h1
        exact ⟨t1, t2, ih _ h.2 t3⟩
      · obtain ⟨rfl, rfl, h4, h5⟩ := h1
        refine ⟨t1, ?_, ih _ h.2 t3⟩
        simpa [Blk.ok, h4, h5] using t2

theorem strip_types {p : Ty → Bool} {bs bs' : List (Blk α)} : bs'.map strip = bs.map strip → allTypes p bs' = allTypes p bs := by
  induction bs generalizing bs' with
  | nil => intro h; simp at h; subst h; rfl
  | cons b bs ih =>
    intro h
    cases bs' with
    | nil => simp at h
    | cons c bs' =>
      simp only [List.map_cons, List.cons.injEq] at h
      have := ih h.2
      have h1 := h.1
      rcases b with ⟨q, n, _ | d⟩ <;> rcases c with ⟨q', m, _ | f⟩ <;> simp [strip] at h1
      · simpa [allTypes] using this
      · simp [allTypes, h1] at this ⊢; rw [this]

theorem load_len {h : Heap α} : ∀ {xs : List Slot} {bs : List (Blk α)}, loadBlocks h xs = some bs →
    (ids bs).length = (addrs xs).length := by
  intro xs
  induction xs with
  | nil => intro bs e; simp [loadBlocks] at e; subst e; rfl
  | cons x xs ih =>
    intro bs e
    rcases x with ⟨p, n, _ | a⟩
    · simp [loadBlocks] at e
      obtain ⟨bs', e1, e2⟩ := e
      subst e2
      simpa [ids, Blk.ids, addrs] using ih e1
    · simp only [loadBlocks] at e
      rcases ha : h a with _ | ⟨ty, vs⟩
      · simp [ha] at e
      · simp [ha] at e
        obtain ⟨bs', e1, e2⟩ := e
        subst e2
        have := ih e1
        simp [ids, Blk.ids, addrs] at this ⊢; exact this

theorem load_types {h : Heap α} {p : Ty → Bool} : ∀ {xs : List Slot} {bs : List (Blk α)}, loadBlocks h xs = some bs →
    (allTypes p bs = true ↔ ∀ a ∈ addrs xs, ∃ x, h a = some x ∧ p x.1 = true) := by
  intro xs
  induction xs with
  | nil => intro bs e; simp [loadBlocks] at e; subst e; simp [allTypes, addrs]
  | cons x xs ih =>
    intro bs e
    rcases x with ⟨q, n, _ | a⟩
    · simp [loadBlocks] at e
      obtain ⟨bs', e1, e2⟩ := e
      subst e2
      have := ih e1
      simp [allTypes, addrs] at this ⊢; exact this
    · simp only [loadBlocks] at e
      rcases ha : h a with _ | ⟨ty, vs⟩
      · simp [ha] at e
      · simp [ha] at e
        obtain ⟨bs', e1, e2⟩ := e
        subst e2
        have := ih e1
        simp [allTypes, addrs, ha] at this ⊢
        rw [this]
        exact fun _ => Iff.rfl

theorem load_all {h : Heap α} : ∀ {xs : List Slot} {bs : List (Blk α)}, loadBlocks h xs = some bs →
    ∀ a ∈ addrs xs, (h a).isSome := by
  intro xs bs e a ha
  have := (load_types (p := fun _ => true) e).1 (by simp [allTypes]; intro b hb; cases b.data <;> rfl) a ha
  obtain ⟨x, h1, -⟩ := this
  rw [h1]; rfl

theorem types_cells {p : Ty → Bool} : ∀ {bs : List (Blk α)} {q : Nat}, Tile q bs → allTypes p bs = allOf p (cells bs) := by
  intro bs
  induction bs with
  | nil => intro q _; rfl
  | cons b bs ih =>
    intro q ht
    obtain ⟨t1, t2, t3⟩ := ht
    have := ih t3
    rcases b with ⟨q', n, _ | d⟩
    · simp [allTypes, allOf, valuesOf, cells, Blk.cells] at this ⊢; exact this
    · simp only [allTypes, allOf, valuesOf, cells, Blk.cells] at this ⊢
      simp only [List.all_cons, List.flatMap_cons, List.filterMap_append, List.all_append, this]
      congr 1
      have hv : d.vals ≠ [] := by
        intro e; simp [Blk.ok, e] at t2; omega
      rcases hvs : d.vals with _ | ⟨v, vs⟩
      · exact absurd hvs hv
      · cases hp : p d.ty <;> simp [Blk.cells, hvs, hp]

end Mdds.Mtv.Cow
