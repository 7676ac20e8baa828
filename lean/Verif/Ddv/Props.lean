import Verif.Ddv.Model
/-!
C40: `delayed_delete_vector` refines a plain vector.

The specification below is a plain list with vector semantics; positions are
given relative to `begin()`, which is all a user can do (`v.begin() + i`).
-/
namespace Mdds.Ddv
open Mdds

variable {α : Type}

/-! ### Specification: what the same calls do on a plain vector -/

/-- Operations of the history; iterators are `begin() + i`. -/
inductive Op (α : Type) where
  | pushBack (v : α)
  | insert (i : Nat) (vs : List α)
  | erase1 (i : Nat)
  | erase2 (i j : Nat)
  | resize (n : Nat)
  | reserve (n : Nat)
  | shrink
  | assign (vs : List α)
  | set (i : Nat) (v : α)
  deriving DecidableEq, Repr

/-- A call is allowed on a vector of length `n` when its iterators are valid. -/
def Op.allowed (n : Nat) : Op α → Prop
  | .insert i _ => i ≤ n
  | .erase1 i => i < n
  | .erase2 i j => i ≤ j ∧ j ≤ n
  | .set i _ => i < n
  | _ => True

/-- The effect on a plain vector. -/
def Op.spec (dflt : α) (l : List α) : Op α → List α
  | .pushBack v => l ++ [v]
  | .insert i vs => l.take i ++ vs ++ l.drop i
  | .erase1 i => l.eraseIdx i
  | .erase2 i j => l.take i ++ l.drop j
  | .resize n => l.take n ++ List.replicate (n - l.length) dflt
  | .reserve _ => l
  | .shrink => l
  | .assign vs => vs
  | .set i v => l.set i v

/-- The same call on the modelled class. -/
def Op.run (dflt : α) (d : DDV α) : Op α → Outcome (DDV α)
  | .pushBack v => .ok (Ddv.pushBack d v)
  | .insert i vs => Ddv.insert d (begin_ d + i) vs
  | .erase1 i => do let r ← Ddv.erase1 d (begin_ d + i); .ok r.1
  | .erase2 i j => do let r ← Ddv.erase2 d (begin_ d + i) (begin_ d + j); .ok r.1
  | .resize n => Ddv.resize dflt d n
  | .reserve n => Ddv.reserve d n
  | .shrink => Ddv.shrinkToFit d
  | .assign vs => Ddv.assign d vs
  | .set i v => Ddv.setIdx d i v

def runAll (dflt : α) : DDV α → List (Op α) → Outcome (DDV α)
  | d, [] => .ok d
  | d, o :: os => do let d' ← o.run dflt d; runAll dflt d' os

/-- Every call of the history is allowed where it happens. -/
def AllAllowed (dflt : α) : List α → List (Op α) → Prop
  | _, [] => True
  | l, o :: os => o.allowed l.length ∧ AllAllowed dflt (o.spec dflt l) os

/-! ### Refinement -/

/-- `d` shows the list `l`. -/
def Shows (d : DDV α) (l : List α) : Prop := d.off ≤ d.vec.length ∧ d.vec.drop d.off = l

theorem Shows.len {d : DDV α} {l : List α} (h : Shows d l) : l.length = d.vec.length - d.off := by
  rw [← h.2]; simp

theorem drop_take_append {l : List α} {o i : Nat} (vs : List α) (j : Nat)
    (h : o + i ≤ l.length) :
    (l.take (o + i) ++ vs ++ l.drop (o + j)).drop o
      = (l.drop o).take i ++ vs ++ (l.drop o).drop j := by
  rw [List.append_assoc, List.drop_append, List.length_take, Nat.min_eq_left h]
  have : o - (o + i) = 0 := by omega
  rw [this, List.drop_zero, List.drop_take, List.drop_drop, List.append_assoc]
  congr 2; omega

theorem clearRemoved_shows {d : DDV α} {l : List α} (h : Shows d l) :
    clearRemoved d = .ok ⟨l, 0⟩ := by
  have h1 := h.1
  simp only [clearRemoved, vecErase, Nat.zero_le, h1, and_self, if_true, Outcome.bind_ok]
  simp [h.2]

theorem run_shows (dflt : α) {d : DDV α} {l : List α} (h : Shows d l) (o : Op α)
    (ha : o.allowed l.length) :
    ∃ d', o.run dflt d = .ok d' ∧ Shows d' (o.spec dflt l) := by
  have hl := h.len
  obtain ⟨h1, h2⟩ := h
  cases o with
  | pushBack v =>
    refine ⟨_, rfl, ?_, ?_⟩
    · simp [pushBack]; omega
    · simp only [pushBack, Op.spec]
      rw [List.drop_append, h2]
      have : d.off - d.vec.length = 0 := by omega
      simp [this]
  | insert i vs =>
    have hi : i ≤ l.length := ha
    have hi' : d.off + i ≤ d.vec.length := by omega
    refine ⟨⟨d.vec.take (d.off + i) ++ vs ++ d.vec.drop (d.off + i), d.off⟩,
      by simp [Op.run, insert, vecInsert, begin_, hi'], ?_, ?_⟩
    · simp; omega
    · simp only [Op.spec]
      rw [drop_take_append vs i hi', h2]
  | erase1 i =>
    have hi : i < l.length := ha
    have hi' : d.off + i < d.vec.length := by omega
    by_cases hz : i = 0
    · subst hz
      refine ⟨_, by simp only [Op.run, erase1, begin_, Nat.add_zero, if_true, Outcome.bind_ok]; rfl, ?_, ?_⟩
      · simp only; omega
      · simp only [Op.spec]
        rw [← h2, List.eraseIdx_zero, List.tail_drop]
    · have hne : ¬ (d.off + i = d.off) := by omega
      have hi2 : d.off + i + 1 ≤ d.vec.length := hi'
      refine ⟨⟨d.vec.take (d.off + i) ++ d.vec.drop (d.off + i + 1), d.off⟩, by
        simp [Op.run, erase1, begin_, hz, hi', vecErase, hi2], ?_, ?_⟩
      · simp; omega
      · simp only [Op.spec]
        have := drop_take_append (l := d.vec) (o := d.off) (i := i) [] (i + 1) (by omega)
        simp only [List.append_nil] at this
        rw [Nat.add_assoc, this, h2, List.eraseIdx_eq_take_drop_succ]
  | erase2 i j =>
    obtain ⟨hij, hj⟩ : i ≤ j ∧ j ≤ l.length := ha
    have hj2 : d.off + j ≤ d.vec.length := by omega
    refine ⟨⟨d.vec.take (d.off + i) ++ d.vec.drop (d.off + j), d.off⟩, by
      simp [Op.run, erase2, begin_, vecErase, hij, hj2], ?_, ?_⟩
    · simp; omega
    · simp only [Op.spec]
      have := drop_take_append (l := d.vec) (o := d.off) (i := i) [] j (by omega)
      simp only [List.append_nil] at this
      rw [this, h2]
  | resize n =>
    refine ⟨_, by simp only [Op.run, resize, clearRemoved_shows ⟨h1, h2⟩, Outcome.bind_ok]; rfl, ?_, ?_⟩
    · simp
    · simp [Op.spec]
  | reserve n =>
    refine ⟨_, by simp only [Op.run, reserve, clearRemoved_shows ⟨h1, h2⟩]; rfl, ?_, ?_⟩ <;> simp [Op.spec]
  | shrink =>
    refine ⟨_, by simp only [Op.run, shrinkToFit, clearRemoved_shows ⟨h1, h2⟩]; rfl, ?_, ?_⟩ <;> simp [Op.spec]
  | assign vs =>
    refine ⟨_, by simp only [Op.run, assign, clearRemoved_shows ⟨h1, h2⟩, Outcome.bind_ok]; rfl, ?_, ?_⟩ <;> simp [Op.spec]
  | set i v =>
    have hi : i < l.length := ha
    refine ⟨_, by simp only [Op.run, setIdx]; rw [if_pos (by omega)], ?_, ?_⟩
    · simp; omega
    · simp only [Op.spec]
      rw [← h2, List.drop_set]
      have : ¬ (i + d.off < d.off) := by omega
      rw [if_neg this]
      congr 1; omega

/-- **C40.** Any history of valid calls on a `delayed_delete_vector` succeeds, and
what iterating it shows afterwards is what the same history leaves in a plain
vector. -/
theorem history_refines (dflt : α) (init : List α) (ops : List (Op α))
    (ha : AllAllowed dflt init ops) :
    ∃ d, runAll dflt (ofRange init) ops = .ok d ∧
      toList d = .ok (ops.foldl (fun l o => o.spec dflt l) init) := by
  have key : ∀ (ops : List (Op α)) (d : DDV α) (l : List α), Shows d l → AllAllowed dflt l ops →
      ∃ d', runAll dflt d ops = .ok d' ∧ Shows d' (ops.foldl (fun l o => o.spec dflt l) l) := by
    intro ops
    induction ops with
    | nil => intro d l h _; exact ⟨d, rfl, h⟩
    | cons o os ih =>
      intro d l h ha
      obtain ⟨d1, e1, s1⟩ := run_shows dflt h o ha.1
      obtain ⟨d2, e2, s2⟩ := ih d1 _ s1 ha.2
      exact ⟨d2, by simp only [runAll, e1, Outcome.bind_ok, e2], s2⟩
  obtain ⟨d, e, s⟩ := key ops (ofRange init) init ⟨by simp [ofRange], by simp [ofRange]⟩ ha
  refine ⟨d, e, ?_⟩
  simp [toList, s.1, s.2]

/-- **C40.** All read accessors of a vector that shows `l` agree with `l`: size,
`operator[]`, `at` (which throws exactly for positions not in `l`), and reverse
iteration. -/
theorem reads_agree {d : DDV α} {l : List α} (h : toList d = .ok l) :
    size d = .ok l.length ∧
    (∀ i, idx d i = Outcome.ofOption l[i]?) ∧
    (∀ i, at_ d i = if h : i < l.length then .ok l[i] else .err .outOfRange) ∧
    toListRev d = .ok l.reverse := by
  have hs : Shows d l := by
    simp only [toList] at h
    split at h
    · rename_i ho
      exact ⟨ho, by simpa using h⟩
    · cases h
  have hl := hs.len
  obtain ⟨h1, h2⟩ := hs
  have hg : ∀ i : Nat, d.vec[i + d.off]? = l[i]? := by
    intro i; rw [← h2, List.getElem?_drop, Nat.add_comm]
  refine ⟨by simp [size, h1, hl], fun i => by simp [idx, hg], fun i => ?_, ?_⟩
  · simp only [at_, hg]
    by_cases hi : i < l.length
    · simp [hi]
    · simp [hi]
  · simp only [toListRev, if_pos h1]
    rw [← h2, List.reverse_drop]

/-- **C40.** The iterator `erase` returns designates the element after the erased
one(s): the same distance from `begin()` as on a plain vector. -/
theorem erase_iterators {d : DDV α} {l : List α} (h : toList d = .ok l) :
    (∀ i, i < l.length → ∃ d' it, erase1 d (begin_ d + i) = .ok (d', it) ∧ it = begin_ d' + i) ∧
    (∀ i j, i ≤ j → j ≤ l.length →
      ∃ d' it, erase2 d (begin_ d + i) (begin_ d + j) = .ok (d', it) ∧ it = begin_ d' + i) := by
  have hs : Shows d l := by
    simp only [toList] at h
    split at h
    · rename_i ho
      exact ⟨ho, by simpa using h⟩
    · cases h
  have hl := hs.len
  have h1 := hs.1
  constructor
  · intro i hi
    by_cases hz : i = 0
    · subst hz
      exact ⟨_, _, by simp only [erase1, begin_, Nat.add_zero, if_true]; rfl, rfl⟩
    · have hne : ¬ (d.off + i = d.off) := by omega
      have hi' : d.off + i < d.vec.length := by omega
      have hi2 : d.off + i + 1 ≤ d.vec.length := hi'
      exact ⟨⟨d.vec.take (d.off + i) ++ d.vec.drop (d.off + i + 1), d.off⟩, d.off + i, by
        simp [erase1, begin_, hz, hi', vecErase, hi2], rfl⟩
  · intro i j hij hj
    have hj2 : d.off + j ≤ d.vec.length := by omega
    exact ⟨⟨d.vec.take (d.off + i) ++ d.vec.drop (d.off + j), d.off⟩, d.off + i, by
      simp [erase2, begin_, vecErase, hij, hj2], rfl⟩

/-- **C40.** `operator==` compares the shown sequences. -/
theorem eq_iff [DecidableEq α] {a b : DDV α} {la lb : List α} (ha : toList a = .ok la)
    (hb : toList b = .ok lb) : eq a b = .ok (decide (la = lb)) := by
  simp [eq, ha, hb]

/-- The example history meets the hypotheses of `history_refines`: front erases
before inserts, a middle erase and a resize. -/
example : AllAllowed 0 [1, 2, 3, 4]
    [.erase1 0, .erase1 0, .insert 1 [7, 8], .erase1 1, .pushBack 9, .set 0 5, .resize 6] := by
  simp [AllAllowed, Op.allowed, Op.spec]

example : runAll 0 (ofRange [1, 2, 3, 4])
    [.erase1 0, .erase1 0, .insert 1 [7, 8], .erase1 1, .pushBack 9, .set 0 5, .resize 6]
      = .ok ⟨[5, 8, 4, 9, 0, 0], 0⟩ := by decide

/-! ### Defects: `swap` and moving -/

/-- **C40, violated by the code.** `swap()` does not exchange the front offsets:
after one front erase on `a`, swapping with `b` shows the wrong contents on both
sides. -/
theorem swap_fails :
    ∃ a b : DDV Nat, toList a = .ok [2, 3] ∧ toList b = .ok [7, 8] ∧
      toList (swap a b).1 = .ok [8] ∧ toList (swap a b).2 = .ok [1, 2, 3] :=
  ⟨⟨[1, 2, 3], 1⟩, ⟨[7, 8], 0⟩, by decide⟩

/-- The first vector of `swap_fails` is reachable. -/
example : runAll 0 (ofRange [1, 2, 3]) [.erase1 0] = .ok (⟨[1, 2, 3], 1⟩ : DDV Nat) := by decide

/-- **C40, violated by the code.** A moved-from vector that had a delayed front
deletion has a wrapped-around size. -/
theorem moved_from_size_fails :
    ∃ a : DDV Nat, toList a = .ok [2] ∧ size (move a).2 = .ub := ⟨⟨[1, 2], 1⟩, by decide⟩

/-- **C40 (partial for `swap`).** `swap` exchanges the contents when both vectors
have the same number of delayed deletions. Missing: different offsets, where the
code is wrong (`swap_fails`). -/
theorem swap_partial {a b : DDV α} {la lb : List α} (ha : toList a = .ok la)
    (hb : toList b = .ok lb) (ho : a.off = b.off) :
    toList (swap a b).1 = .ok lb ∧ toList (swap a b).2 = .ok la := by
  cases a; cases b
  simp only at ho
  subst ho
  exact ⟨hb, ha⟩

end Mdds.Ddv
