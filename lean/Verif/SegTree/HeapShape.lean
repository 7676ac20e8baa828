import Verif.SegTree.Heap
import Verif.SegTree.StepLemmas
import Verif.FST.HeapWorld

/-!
# The shape of a tree in memory

A `Shape` says which nodes a tree consists of, at which addresses, with which keys.  Together with
the data chains found at these addresses it is a `Tree` of `Model.lean`.  This file shows that
working on chains at addresses is the same as working on the tree.
-/
namespace Mdds.SegTree.Mem

open Mdds.FST.Mem (upd upd_same upd_ne)

inductive Shape where
  | bot1 (p : Nat) (low high : Int) (a : Nat) (ka : Int)
  | bot2 (p : Nat) (low high : Int) (a : Nat) (ka : Int) (b : Nat) (kb : Int)
  | one (p : Nat) (low high : Int) (s : Shape)
  | two (p : Nat) (low high : Int) (s t : Shape)
  deriving DecidableEq, Repr

namespace Shape

def addr : Shape → Nat
  | bot1 p .. => p
  | bot2 p .. => p
  | one p .. => p
  | two p .. => p

def low : Shape → Int
  | bot1 _ l .. => l
  | bot2 _ l .. => l
  | one _ l .. => l
  | two _ l .. => l

def high : Shape → Int
  | bot1 _ _ h .. => h
  | bot2 _ _ h .. => h
  | one _ _ h .. => h
  | two _ _ h .. => h

/-- The addresses of the non-leaf nodes. -/
def inners : Shape → List Nat
  | bot1 p .. => [p]
  | bot2 p .. => [p]
  | one p _ _ s => p :: s.inners
  | two p _ _ s t => p :: (s.inners ++ t.inners)

/-- The addresses of the leaf nodes, from left to right. -/
def leaves : Shape → List Nat
  | bot1 _ _ _ a _ => [a]
  | bot2 _ _ _ a _ b _ => [a, b]
  | one _ _ _ s => s.leaves
  | two _ _ _ s t => s.leaves ++ t.leaves

def depth : Shape → Nat
  | bot1 .. => 1
  | bot2 .. => 1
  | one _ _ _ s => s.depth + 1
  | two _ _ _ s t => max s.depth t.depth + 1

theorem depth_le (S : Shape) : S.depth ≤ S.inners.length := by
  induction S with
  | bot1 => simp [depth, inners]
  | bot2 => simp [depth, inners]
  | one p l h s ih => simp [depth, inners]; omega
  | two p l h s t ihs iht => simp [depth, inners]; omega

theorem addr_mem (S : Shape) : S.addr ∈ S.inners := by cases S <;> simp [addr, inners]

/-- The node belongs to the tree. -/
def Has (S : Shape) : Ptr → Prop
  | .leaf a => a ∈ S.leaves
  | .inner p => p ∈ S.inners

/-- No node occurs twice. -/
def Distinct (S : Shape) : Prop := S.inners.Nodup ∧ S.leaves.Nodup

end Shape

/-- The positions in a chain; there are none if there is no chain. -/
def Chain.list (c : Chain) : List Nat := c.getD []

/-- The tree made of these nodes with these chains. -/
def view (ch : Ptr → Chain) : Shape → Tree
  | .bot1 p low high a ka => .bot1 low high (ch (.inner p)).list ⟨ka, (ch (.leaf a)).list⟩
  | .bot2 p low high a ka b kb =>
    .bot2 low high (ch (.inner p)).list ⟨ka, (ch (.leaf a)).list⟩ ⟨kb, (ch (.leaf b)).list⟩
  | .one p low high s => .one low high (ch (.inner p)).list (view ch s)
  | .two p low high s t => .two low high (ch (.inner p)).list (view ch s) (view ch t)

@[simp] theorem view_low (ch : Ptr → Chain) (S : Shape) : (view ch S).low = S.low := by cases S <;> rfl
@[simp] theorem view_high (ch : Ptr → Chain) (S : Shape) : (view ch S).high = S.high := by cases S <;> rfl

theorem view_congr {ch ch' : Ptr → Chain} {S : Shape} (h : ∀ q, S.Has q → ch' q = ch q) : view ch' S = view ch S := by
  induction S with
  | bot1 p l hh a ka =>
    simp [view, h (.inner p) (by simp [Shape.Has, Shape.inners]), h (.leaf a) (by simp [Shape.Has, Shape.leaves])]
  | bot2 p l hh a ka b kb =>
    simp [view, h (.inner p) (by simp [Shape.Has, Shape.inners]), h (.leaf a) (by simp [Shape.Has, Shape.leaves]),
      h (.leaf b) (by simp [Shape.Has, Shape.leaves])]
  | one p l hh s ih =>
    simp only [view]
    rw [h (.inner p) (by simp [Shape.Has, Shape.inners]), ih fun q hq => h q (by
      cases q <;> simp_all [Shape.Has, Shape.inners, Shape.leaves])]
  | two p l hh s t ihs iht =>
    simp only [view]
    rw [h (.inner p) (by simp [Shape.Has, Shape.inners]), ihs fun q hq => h q (by
      cases q <;> simp_all [Shape.Has, Shape.inners, Shape.leaves]), iht fun q hq => h q (by
      cases q <;> simp_all [Shape.Has, Shape.inners, Shape.leaves])]

/-! ## Marking -/

/-- The nodes that `descend_tree_and_mark` marks. -/
def marks (s e : Int) : Shape → List Ptr
  | .bot1 p low high a ka =>
    if e < low ∨ high ≤ s then [] else if s ≤ low ∧ high < e then [.inner p]
    else if s ≤ ka ∧ ka < e then [.leaf a] else []
  | .bot2 p low high a ka b kb =>
    if e < low ∨ high ≤ s then [] else if s ≤ low ∧ high < e then [.inner p]
    else (if s ≤ ka ∧ ka < e then [.leaf a] else []) ++ (if s ≤ kb ∧ kb < e then [.leaf b] else [])
  | .one p low high t =>
    if e < low ∨ high ≤ s then [] else if s ≤ low ∧ high < e then [.inner p] else marks s e t
  | .two p low high t u =>
    if e < low ∨ high ≤ s then [] else if s ≤ low ∧ high < e then [.inner p] else marks s e t ++ marks s e u

/-- Append a position to the chains of the listed nodes, one after the other. -/
def pushAll (i : Nat) (ps : List Ptr) (ch : Ptr → Chain) : Ptr → Chain :=
  ps.foldl (fun ch p => upd ch p ((ch p).push i)) ch

theorem pushAll_not_mem (i : Nat) (ps : List Ptr) (ch : Ptr → Chain) {q : Ptr} (h : q ∉ ps) : pushAll i ps ch q = ch q := by
  induction ps generalizing ch with
  | nil => rfl
  | cons p ps ih =>
    simp only [List.mem_cons, not_or] at h
    show pushAll i ps _ q = _
    rw [ih _ h.2]
    exact upd_ne _ _ h.1

theorem pushAll_append (i : Nat) (ps qs : List Ptr) (ch : Ptr → Chain) :
    pushAll i (ps ++ qs) ch = pushAll i qs (pushAll i ps ch) := by simp [pushAll]

/-- The node a path leads to. -/
def ptrAt : Path → Shape → Option Ptr
  | [], S => some (.inner S.addr)
  | [false], .bot1 _ _ _ a _ => some (.leaf a)
  | [false], .bot2 _ _ _ a _ _ _ => some (.leaf a)
  | [true], .bot2 _ _ _ _ _ b _ => some (.leaf b)
  | false :: q, .one _ _ _ s => ptrAt q s
  | false :: q, .two _ _ _ s _ => ptrAt q s
  | true :: q, .two _ _ _ _ t => ptrAt q t
  | _, _ => none

@[simp] theorem ptrAt_nil (S : Shape) : ptrAt [] S = some (.inner S.addr) := by cases S <;> rfl
@[simp] theorem ptrAt_one (q : Path) (p : Nat) (l h : Int) (s : Shape) : ptrAt (false :: q) (.one p l h s) = ptrAt q s := by
  cases q <;> rfl
@[simp] theorem ptrAt_two_l (q : Path) (p : Nat) (l h : Int) (s t : Shape) :
    ptrAt (false :: q) (.two p l h s t) = ptrAt q s := by cases q <;> rfl
@[simp] theorem ptrAt_two_r (q : Path) (p : Nat) (l h : Int) (s t : Shape) :
    ptrAt (true :: q) (.two p l h s t) = ptrAt q t := by cases q <;> rfl

theorem marks_has {s e : Int} {S : Shape} {q : Ptr} (h : q ∈ marks s e S) : S.Has q := by
  induction S with
  | bot1 p l hh a ka =>
    simp only [marks] at h
    split at h
    · simp at h
    · split at h
      · simp at h; subst h; simp [Shape.Has, Shape.inners]
      · split at h
        · simp at h; subst h; simp [Shape.Has, Shape.leaves]
        · simp at h
  | bot2 p l hh a ka b kb =>
    simp only [marks] at h
    split at h
    · simp at h
    · split at h
      · simp at h; subst h; simp [Shape.Has, Shape.inners]
      · rcases List.mem_append.1 h with h | h <;> split at h <;> simp at h <;> subst h <;>
          simp [Shape.Has, Shape.leaves]
  | one p l hh s ih =>
    simp only [marks] at h
    split at h
    · simp at h
    · split at h
      · simp at h; subst h; simp [Shape.Has, Shape.inners]
      · have := ih h
        cases q <;> simp_all [Shape.Has, Shape.inners, Shape.leaves]
  | two p l hh s t ihs iht =>
    simp only [marks] at h
    split at h
    · simp at h
    · split at h
      · simp at h; subst h; simp [Shape.Has, Shape.inners]
      · rcases List.mem_append.1 h with h | h
        · have := ihs h
          cases q <;> simp_all [Shape.Has, Shape.inners, Shape.leaves]
        · have := iht h
          cases q <;> simp_all [Shape.Has, Shape.inners, Shape.leaves]

theorem Shape.Distinct.one {p : Nat} {l h : Int} {s : Shape} (d : (Shape.one p l h s).Distinct) :
    s.Distinct ∧ ¬ s.Has (.inner p) := by
  obtain ⟨d1, d2⟩ := d
  simp only [Shape.inners, List.nodup_cons] at d1
  exact ⟨⟨d1.2, d2⟩, d1.1⟩

theorem Shape.Distinct.two {p : Nat} {l h : Int} {s t : Shape} (d : (Shape.two p l h s t).Distinct) :
    s.Distinct ∧ t.Distinct ∧ (¬ s.Has (.inner p)) ∧ (¬ t.Has (.inner p)) ∧ ∀ q, s.Has q → ¬ t.Has q := by
  obtain ⟨d1, d2⟩ := d
  simp only [Shape.inners, List.nodup_cons, List.mem_append, not_or, List.nodup_append] at d1
  simp only [Shape.leaves, List.nodup_append] at d2
  refine ⟨⟨d1.2.1, d2.1⟩, ⟨d1.2.2.1, d2.2.1⟩, d1.1.1, d1.1.2, fun q hs ht => ?_⟩
  cases q with
  | leaf a => exact d2.2.2 a hs a ht rfl
  | inner p => exact d1.2.2.2 p hs p ht rfl

theorem view_push_off {i : Nat} {ps : List Ptr} {ch : Ptr → Chain} {S : Shape} (h : ∀ q ∈ ps, ¬ S.Has q) :
    view (pushAll i ps ch) S = view ch S :=
  view_congr fun q hq => pushAll_not_mem i ps ch fun hm => h q hm hq

@[simp] theorem push_list (c : Chain) (i : Nat) : (c.push i).list = c.list ++ [i] := rfl

theorem view_mark (i : Nat) (s e : Int) (ch : Ptr → Chain) {S : Shape} (d : S.Distinct) :
    (mark i s e (view ch S)).1 = view (pushAll i (marks s e S) ch) S := by
  induction S generalizing ch with
  | bot1 p l hh a ka =>
    simp only [view, mark, marks, markLeaf]
    split
    · rfl
    · split
      · simp [pushAll, upd]
      · split <;> simp [pushAll, upd]
  | bot2 p l hh a ka b kb =>
    have hab : a ≠ b := by have := d.2; simpa [Shape.leaves] using this
    have hba : b ≠ a := Ne.symm hab
    simp only [view, mark, marks, markLeaf]
    split
    · rfl
    · split
      · simp [pushAll, upd]
      · split <;> split <;> simp [pushAll, upd, hab, hba]
  | one p l hh t ih =>
    obtain ⟨d1, d2⟩ := d.one
    simp only [view, mark, marks]
    split
    · rfl
    · split
      · rw [view_push_off (fun q hq => by simp at hq; subst hq; exact d2)]
        simp [pushAll]
      · rw [ih ch d1, pushAll_not_mem i _ ch (fun hm => d2 (marks_has hm))]
  | two p l hh t u iht ihu =>
    obtain ⟨d1, d2, d3, d4, d5⟩ := d.two
    simp only [view, mark, marks]
    split
    · rfl
    · split
      · rw [view_push_off (fun q hq => by simp at hq; subst hq; exact d3),
          view_push_off (fun q hq => by simp at hq; subst hq; exact d4)]
        simp [pushAll]
      · rw [iht ch d1, ihu ch d2, pushAll_not_mem i _ ch (fun hm => by
          rcases List.mem_append.1 hm with hm | hm
          · exact d3 (marks_has hm)
          · exact d4 (marks_has hm))]
        simp only [pushAll_append]
        rw [view_push_off (S := t) (ps := marks s e u) (fun q hq hh => d5 q hh (marks_has hq))]
        rw [← ihu (pushAll i (marks s e t) ch) d2, ← ihu ch d2]
        rw [view_push_off (S := u) (ps := marks s e t) (fun q hq hh => d5 q (marks_has hq) hh)]

theorem marks_paths (i : Nat) (s e : Int) (ch : Ptr → Chain) (S : Shape) :
    (mark i s e (view ch S)).2.map (ptrAt · S) = (marks s e S).map some := by
  induction S generalizing ch with
  | bot1 p l hh a ka =>
    simp only [view, mark, marks, markLeaf]
    split
    · rfl
    · split
      · rfl
      · split <;> rfl
  | bot2 p l hh a ka b kb =>
    simp only [view, mark, marks, markLeaf]
    split
    · rfl
    · split
      · rfl
      · split <;> split <;> rfl
  | one p l hh t ih =>
    simp only [view, mark, marks]
    split
    · rfl
    · split
      · rfl
      · rw [List.map_map, ← ih ch]
        exact List.map_congr_left fun q _ => ptrAt_one ..
  | two p l hh t u iht ihu =>
    simp only [view, mark, marks]
    split
    · rfl
    · split
      · rfl
      · rw [List.map_append, List.map_append, List.map_map, List.map_map, ← iht ch, ← ihu ch]
        congr 1 <;> exact List.map_congr_left fun q _ => by simp

/-! ## Searching -/

/-- The nodes whose chains a search offers to the result. -/
def visited (pt : Int) : Shape → List Ptr
  | .bot1 p low high a ka =>
    if pt < low ∨ high ≤ pt then [] else if pt < ka then [.inner p] else [.inner p, .leaf a]
  | .bot2 p low high a ka b kb =>
    if pt < low ∨ high ≤ pt then [] else if pt < ka then [.inner p]
    else if kb ≤ pt then [.inner p, .leaf b] else [.inner p, .leaf a]
  | .one p low high t =>
    if pt < low ∨ high ≤ pt then [] else if pt < t.low then [.inner p] else .inner p :: visited pt t
  | .two p low high t u =>
    if pt < low ∨ high ≤ pt then [] else if pt < t.low then [.inner p]
    else if t.high ≤ pt then .inner p :: visited pt u else .inner p :: visited pt t

theorem view_descend (pt : Int) (ch : Ptr → Chain) (S : Shape) :
    descend pt (view ch S) = (visited pt S).map fun q => (ch q).list := by
  induction S with
  | bot1 p l hh a ka => simp only [view, descend, visited]; repeat' split
                        all_goals rfl
  | bot2 p l hh a ka b kb => simp only [view, descend, visited]; repeat' split
                             all_goals rfl
  | one p l hh t ih =>
    simp only [view, descend, visited, view_low, ih]
    repeat' split
    all_goals rfl
  | two p l hh t u iht ihu =>
    simp only [view, descend, visited, view_low, view_high, iht, ihu]
    repeat' split
    all_goals rfl

theorem visited_has {pt : Int} {S : Shape} {q : Ptr} (h : q ∈ visited pt S) : S.Has q := by
  induction S with
  | bot1 p l hh a ka =>
    simp only [visited] at h
    repeat' split at h
    all_goals simp at h
    all_goals first
      | (rcases h with h | h <;> subst h <;> simp [Shape.Has, Shape.inners, Shape.leaves])
      | (subst h; simp [Shape.Has, Shape.inners, Shape.leaves])
  | bot2 p l hh a ka b kb =>
    simp only [visited] at h
    repeat' split at h
    all_goals simp at h
    all_goals first
      | (rcases h with h | h <;> subst h <;> simp [Shape.Has, Shape.inners, Shape.leaves])
      | (subst h; simp [Shape.Has, Shape.inners, Shape.leaves])
  | one p l hh t ih =>
    simp only [visited] at h
    repeat' split at h
    · simp at h
    · simp at h; subst h; simp [Shape.Has, Shape.inners]
    · rcases List.mem_cons.1 h with h | h
      · subst h; simp [Shape.Has, Shape.inners]
      · have := ih h
        cases q <;> simp_all [Shape.Has, Shape.inners, Shape.leaves]
  | two p l hh t u iht ihu =>
    simp only [visited] at h
    repeat' split at h
    · simp at h
    · simp at h; subst h; simp [Shape.Has, Shape.inners]
    · rcases List.mem_cons.1 h with h | h
      · subst h; simp [Shape.Has, Shape.inners]
      · have := ihu h
        cases q <;> simp_all [Shape.Has, Shape.inners, Shape.leaves]
    · rcases List.mem_cons.1 h with h | h
      · subst h; simp [Shape.Has, Shape.inners]
      · have := iht h
        cases q <;> simp_all [Shape.Has, Shape.inners, Shape.leaves]

/-! ## Unmarking -/

/-- Take a position out of a chain, if there is one. -/
def Chain.rm (i : Nat) (c : Chain) : Chain := c.map (rmChain i)

@[simp] theorem rm_list (i : Nat) (c : Chain) : (c.rm i).list = rmChain i c.list := by
  cases c <;> simp [Chain.rm, Chain.list, rmChain]

theorem ptrAt_has {q : Path} {S : Shape} {x : Ptr} (h : ptrAt q S = some x) : S.Has x := by
  induction S generalizing q with
  | bot1 p l hh a ka =>
    match q, h with
    | [], h => simp at h; subst h; simp [Shape.Has, Shape.inners, Shape.addr]
    | [false], h => simp [ptrAt] at h; subst h; simp [Shape.Has, Shape.leaves]
    | [true], h => simp [ptrAt] at h
    | _ :: _ :: _, h => simp [ptrAt] at h
  | bot2 p l hh a ka b kb =>
    match q, h with
    | [], h => simp at h; subst h; simp [Shape.Has, Shape.inners, Shape.addr]
    | [false], h => simp [ptrAt] at h; subst h; simp [Shape.Has, Shape.leaves]
    | [true], h => simp [ptrAt] at h; subst h; simp [Shape.Has, Shape.leaves]
    | _ :: _ :: _, h => simp [ptrAt] at h
  | one p l hh s ih =>
    match q, h with
    | [], h => simp at h; subst h; simp [Shape.Has, Shape.inners, Shape.addr]
    | false :: q, h =>
      have := ih (by simpa using h)
      cases x <;> simp_all [Shape.Has, Shape.inners, Shape.leaves]
    | true :: q, h => cases q <;> simp [ptrAt] at h
  | two p l hh s t ihs iht =>
    match q, h with
    | [], h => simp at h; subst h; simp [Shape.Has, Shape.inners, Shape.addr]
    | false :: q, h =>
      have := ihs (by simpa using h)
      cases x <;> simp_all [Shape.Has, Shape.inners, Shape.leaves]
    | true :: q, h =>
      have := iht (by simpa using h)
      cases x <;> simp_all [Shape.Has, Shape.inners, Shape.leaves]

theorem view_off {ch : Ptr → Chain} {S : Shape} {x : Ptr} {c : Chain} (h : ¬ S.Has x) : view (upd ch x c) S = view ch S :=
  view_congr fun q hq => upd_ne _ _ fun e => h (e ▸ hq)

theorem removeAt_one (i : Nat) (q : Path) (l h : Int) (c : List Nat) (a : Tree) :
    removeAt i (false :: q) (.one l h c a) = (removeAt i q a).map (.one l h c ·) := by cases q <;> rfl
theorem removeAt_two_l (i : Nat) (q : Path) (l h : Int) (c : List Nat) (a b : Tree) :
    removeAt i (false :: q) (.two l h c a b) = (removeAt i q a).map (fun a' => .two l h c a' b) := by cases q <;> rfl
theorem removeAt_two_r (i : Nat) (q : Path) (l h : Int) (c : List Nat) (a b : Tree) :
    removeAt i (true :: q) (.two l h c a b) = (removeAt i q b).map (fun b' => .two l h c a b') := by cases q <;> rfl

theorem view_removeAt (i : Nat) {ch : Ptr → Chain} {S : Shape} (d : S.Distinct) {q : Path} {x : Ptr} (h : ptrAt q S = some x) :
    removeAt i q (view ch S) = some (view (upd ch x ((ch x).rm i)) S) := by
  induction S generalizing q with
  | bot1 p l hh a ka =>
    match q, h with
    | [], h => simp [Shape.addr] at h; subst h; simp [view, removeAt, upd]
    | [false], h => simp [ptrAt] at h; subst h; simp [view, removeAt, upd]
    | [true], h => simp [ptrAt] at h
    | _ :: _ :: _, h => simp [ptrAt] at h
  | bot2 p l hh a ka b kb =>
    have hab : a ≠ b := by have := d.2; simpa [Shape.leaves] using this
    have hba : b ≠ a := Ne.symm hab
    match q, h with
    | [], h => simp [Shape.addr] at h; subst h; simp [view, removeAt, upd]
    | [false], h => simp [ptrAt] at h; subst h; simp [view, removeAt, upd, hba]
    | [true], h => simp [ptrAt] at h; subst h; simp [view, removeAt, upd, hab]
    | _ :: _ :: _, h => simp [ptrAt] at h
  | one p l hh s ih =>
    obtain ⟨d1, d2⟩ := d.one
    match q, h with
    | [], h => simp [Shape.addr] at h; subst h; simp [view, removeAt, view_off d2]
    | false :: q, h =>
      have h : ptrAt q s = some x := by simpa using h
      have hx : Ptr.inner p ≠ x := fun e => d2 (e ▸ ptrAt_has h)
      simp [view, removeAt_one, ih d1 h, upd_ne _ _ hx]
    | true :: q, h => cases q <;> simp [ptrAt] at h
  | two p l hh s t ihs iht =>
    obtain ⟨d1, d2, d3, d4, d5⟩ := d.two
    match q, h with
    | [], h => simp [Shape.addr] at h; subst h; simp [view, removeAt, view_off d3, view_off d4]
    | false :: q, h =>
      have h : ptrAt q s = some x := by simpa using h
      have hx : Ptr.inner p ≠ x := fun e => d3 (e ▸ ptrAt_has h)
      simp [view, removeAt_two_l, ihs d1 h, upd_ne _ _ hx, view_off (d5 x (ptrAt_has h))]
    | true :: q, h =>
      have h : ptrAt q t = some x := by simpa using h
      have hx : Ptr.inner p ≠ x := fun e => d4 (e ▸ ptrAt_has h)
      simp [view, removeAt_two_r, iht d2 h, upd_ne _ _ hx, view_off (fun hs => d5 x hs (ptrAt_has h))]

/-- Take a position out of the chains of the listed nodes. -/
def rmAll (i : Nat) (ps : List Ptr) (ch : Ptr → Chain) : Ptr → Chain :=
  ps.foldl (fun ch p => upd ch p ((ch p).rm i)) ch

theorem view_removeAll (i : Nat) {S : Shape} (d : S.Distinct) {qs : List Path} {ps : List Ptr} {ch : Ptr → Chain}
    (h : qs.map (ptrAt · S) = ps.map some) : removeAll i qs (view ch S) = some (view (rmAll i ps ch) S) := by
  induction qs generalizing ps ch with
  | nil => cases ps with
    | nil => rfl
    | cons => simp at h
  | cons q qs ih =>
    cases ps with
    | nil => simp at h
    | cons p ps =>
      simp only [List.map_cons, List.cons.injEq] at h
      rw [removeAll, view_removeAt i d h.1, Option.bind_some, ih h.2]
      rfl

end Mdds.SegTree.Mem
