import Verif.SegTree.HeapLeaves

/-!
# The tree builder in memory
-/
namespace Mdds.SegTree.Mem

open Mdds.FST.Mem hiding Path

variable {V L O R : Type}

/-! ## Reasoning about computations -/

/-- The computation is defined and its result satisfies `Q`. -/
def aw {α : Type} (p : ActG L O R α) (Q : α → MemG L O R → Prop) (m : MemG L O R) : Prop := ∃ a m', p m = .ok (a, m') ∧ Q a m'

theorem aw_ret {α : Type} {a : α} {Q : α → MemG L O R → Prop} {m : MemG L O R} (q : Q a m) : aw (Act.ret a) Q m := ⟨a, m, rfl, q⟩

theorem aw_pure {α : Type} {a : α} {Q : α → MemG L O R → Prop} {m : MemG L O R} (q : Q a m) : aw (pure a) Q m := ⟨a, m, rfl, q⟩

theorem aw_bind {α β : Type} {p : ActG L O R α} {k : α → ActG L O R β} {Q : β → MemG L O R → Prop} {m : MemG L O R}
    (h : aw p (fun a m' => aw (k a) Q m') m) : aw (p >>= k) Q m := by
  obtain ⟨a, m1, e1, b, m2, e2, q⟩ := h
  exact ⟨b, m2, by show Act.seq p k m = _; simp only [Act.seq, e1, e2], q⟩

theorem aw_mono {α : Type} {p : ActG L O R α} {Q Q' : α → MemG L O R → Prop} {m : MemG L O R} (h : aw p Q m)
    (hQR : ∀ a m', Q a m' → Q' a m') : aw p Q' m := by
  obtain ⟨a, m1, e, q⟩ := h
  exact ⟨a, m1, e, hQR a m1 q⟩

theorem aw_leaves {α : Type} {p : Prog L α} {Q : α → MemG L O R → Prop} {m : MemG L O R}
    (h : wp p (fun a h' => Q a { m with lh := h' }) m.lh) : aw (onLeaves p) Q m := by
  obtain ⟨a, h', e, q⟩ := h
  exact ⟨a, _, by simp only [onLeaves, e], q⟩

theorem aw_getObj {o : Nat} {x : O} {Q : O → MemG L O R → Prop} {m : MemG L O R} (e : m.obj o = some x) (q : Q x m) :
    aw (getObj o) Q m := ⟨x, m, by simp only [getObj, e], q⟩

theorem aw_setObj {o : Nat} {x y : O} {Q : Unit → MemG L O R → Prop} {m : MemG L O R} (e : m.obj o = some y)
    (q : Q () { m with obj := upd m.obj o (some x) }) : aw (setObj o x) Q m := ⟨(), _, by simp only [setObj, e], q⟩

theorem aw_newObj {o : Nat} {x : O} {Q : Unit → MemG L O R → Prop} {m : MemG L O R} (e : m.obj o = none)
    (q : Q () { m with obj := upd m.obj o (some x) }) : aw (newObj o x) Q m := ⟨(), _, by simp only [newObj, e], q⟩

theorem aw_endObj {o : Nat} {y : O} {Q : Unit → MemG L O R → Prop} {m : MemG L O R} (e : m.obj o = some y)
    (q : Q () { m with obj := upd m.obj o none }) : aw (endObj o) Q m := ⟨(), _, by simp only [endObj, e], q⟩

theorem aw_readInner {p : Nat} {n : Inner} {Q : Inner → MemG L O R → Prop} {m : MemG L O R} (e : m.nl p = some n) (q : Q n m) :
    aw (readInner p) Q m := ⟨n, m, by simp only [readInner, e], q⟩

theorem aw_writeInner {p : Nat} {n y : Inner} {Q : Unit → MemG L O R → Prop} {m : MemG L O R} (e : m.nl p = some y)
    (q : Q () { m with nl := upd m.nl p (some n) }) : aw (writeInner p n) Q m := ⟨(), _, by simp only [writeInner, e], q⟩

/-! ## Shapes held in memory -/

/-- A node without its chain. -/
def strip (n : Inner) : Inner := { n with chain := none }

/-- The nodes of the shape are in memory, with the bounds, children and keys it says. -/
def Held (nl : Nat → Option Inner) (K : Nat → Int) : Shape → Prop
  | .bot1 p l h a ka => (nl p).map strip = some ⟨l, h, none, some (.leaf a), none⟩ ∧ K a = ka
  | .bot2 p l h a ka b kb =>
    (nl p).map strip = some ⟨l, h, none, some (.leaf a), some (.leaf b)⟩ ∧ K a = ka ∧ K b = kb
  | .one p l h s => (nl p).map strip = some ⟨l, h, none, some (.inner s.addr), none⟩ ∧ Held nl K s
  | .two p l h s t =>
    (nl p).map strip = some ⟨l, h, none, some (.inner s.addr), some (.inner t.addr)⟩ ∧ Held nl K s ∧ Held nl K t

theorem Held.congr {nl nl' : Nat → Option Inner} {K K' : Nat → Int} {S : Shape} (h : Held nl K S)
    (h1 : ∀ p ∈ S.inners, (nl' p).map strip = (nl p).map strip) (h2 : ∀ a ∈ S.leaves, K' a = K a) : Held nl' K' S := by
  induction S with
  | bot1 p l hh a ka =>
    exact ⟨by rw [h1 p (by simp [Shape.inners])]; exact h.1, by rw [h2 a (by simp [Shape.leaves])]; exact h.2⟩
  | bot2 p l hh a ka b kb =>
    exact ⟨by rw [h1 p (by simp [Shape.inners])]; exact h.1, by rw [h2 a (by simp [Shape.leaves])]; exact h.2.1,
      by rw [h2 b (by simp [Shape.leaves])]; exact h.2.2⟩
  | one p l hh s ih =>
    exact ⟨by rw [h1 p (by simp [Shape.inners])]; exact h.1,
      ih h.2 (fun p hp => h1 p (by simp [Shape.inners, hp])) (fun a ha => h2 a (by simpa [Shape.leaves] using ha))⟩
  | two p l hh s t ihs iht =>
    exact ⟨by rw [h1 p (by simp [Shape.inners])]; exact h.1,
      ihs h.2.1 (fun p hp => h1 p (by simp [Shape.inners, hp])) (fun a ha => h2 a (by simp [Shape.leaves, ha])),
      iht h.2.2 (fun p hp => h1 p (by simp [Shape.inners, hp])) (fun a ha => h2 a (by simp [Shape.leaves, ha]))⟩

theorem Held.top {nl : Nat → Option Inner} {K : Nat → Int} {S : Shape} (h : Held nl K S) :
    ∃ n, nl S.addr = some n ∧ n.low = S.low ∧ n.high = S.high := by
  cases S with
  | bot1 p l hh a ka =>
    obtain ⟨n, e, e2⟩ := Option.map_eq_some_iff.1 h.1
    simp [strip] at e2
    exact ⟨n, e, e2.1, e2.2.1⟩
  | bot2 p l hh a ka b kb =>
    obtain ⟨n, e, e2⟩ := Option.map_eq_some_iff.1 h.1
    simp [strip] at e2
    exact ⟨n, e, e2.1, e2.2.1⟩
  | one p l hh s =>
    obtain ⟨n, e, e2⟩ := Option.map_eq_some_iff.1 h.1
    simp [strip] at e2
    exact ⟨n, e, e2.1, e2.2.1⟩
  | two p l hh s t =>
    obtain ⟨n, e, e2⟩ := Option.map_eq_some_iff.1 h.1
    simp [strip] at e2
    exact ⟨n, e, e2.1, e2.2.1⟩

/-! ## What the builder makes -/

/-- The lowest level of non-leaf nodes. -/
def bottomsS (base : Nat) : Nat → List (Nat × Int) → List Shape
  | _, [] => []
  | k, [a] => [.bot1 (base + k) a.2 a.2 a.1 a.2]
  | k, [a, b] => [.bot2 (base + k) a.2 b.2 a.1 a.2 b.1 b.2]
  | k, a :: b :: c :: rest => .bot2 (base + k) a.2 c.2 a.1 a.2 b.1 b.2 :: bottomsS base (k + 1) (c :: rest)

/-- The next level. -/
def pairUpS (base : Nat) : Nat → List Shape → List Shape
  | _, [] => []
  | k, [s] => [.one (base + k) s.low s.high s]
  | k, s :: t :: rest => .two (base + k) s.low t.high s t :: pairUpS base (k + 1) rest

/-- All further levels. -/
def buildUpS (base : Nat) : Nat → Nat → List Shape → Option Shape
  | _, _, [] => none
  | _, _, [s] => some s
  | 0, _, _ :: _ :: _ => none
  | n + 1, k, a :: b :: rest => buildUpS base n (k + (pairUpS base k (a :: b :: rest)).length) (pairUpS base k (a :: b :: rest))

def buildS (base : Nat) (xs : List (Nat × Int)) : Option Shape :=
  buildUpS base (bottomsS base 0 xs).length (bottomsS base 0 xs).length (bottomsS base 0 xs)

theorem bottomsS_length (base : Nat) (k : Nat) (xs : List (Nat × Int)) : (bottomsS base k xs).length = (xs.length + 1) / 2 := by
  fun_induction bottomsS base k xs with
  | case1 => rfl
  | case2 => simp
  | case3 => simp
  | case4 k a b c rest ih => simp only [List.length_cons, ih]; omega

theorem pairUpS_length (base : Nat) (k : Nat) (Ss : List Shape) : (pairUpS base k Ss).length = (Ss.length + 1) / 2 := by
  fun_induction pairUpS base k Ss with
  | case1 => rfl
  | case2 => simp
  | case3 k s t rest ih => simp only [List.length_cons, ih]; omega

theorem bottomsS_leaves (base : Nat) (k : Nat) (xs : List (Nat × Int)) :
    (bottomsS base k xs).flatMap Shape.leaves = xs.map Prod.fst := by
  fun_induction bottomsS base k xs with
  | case1 => rfl
  | case2 => simp [Shape.leaves]
  | case3 => simp [Shape.leaves]
  | case4 k a b c rest ih => rw [List.flatMap_cons, ih]; simp [Shape.leaves]

theorem bottomsS_inners (base : Nat) (k : Nat) (xs : List (Nat × Int)) :
    (bottomsS base k xs).flatMap Shape.inners = List.range' (base + k) ((xs.length + 1) / 2) := by
  fun_induction bottomsS base k xs with
  | case1 => rfl
  | case2 => simp [Shape.inners]
  | case3 => simp [Shape.inners]
  | case4 k a b c rest ih =>
    rw [List.flatMap_cons, ih]
    have : ((a :: b :: c :: rest).length + 1) / 2 = ((c :: rest).length + 1) / 2 + 1 := by simp; omega
    rw [this, List.range'_succ]
    simp [Shape.inners, Nat.add_assoc]

theorem pairUpS_leaves (base : Nat) (k : Nat) (Ss : List Shape) :
    (pairUpS base k Ss).flatMap Shape.leaves = Ss.flatMap Shape.leaves := by
  fun_induction pairUpS base k Ss with
  | case1 => rfl
  | case2 => simp [Shape.leaves]
  | case3 k s t rest ih => simp [Shape.leaves, ih]

theorem pairUpS_inners (base : Nat) (k : Nat) (Ss : List Shape) :
    ((pairUpS base k Ss).flatMap Shape.inners).Perm (List.range' (base + k) ((Ss.length + 1) / 2) ++ Ss.flatMap Shape.inners) := by
  fun_induction pairUpS base k Ss with
  | case1 => simp
  | case2 k s => simp [Shape.inners]
  | case3 k s t rest ih =>
    have : ((s :: t :: rest).length + 1) / 2 = (rest.length + 1) / 2 + 1 := by simp; omega
    rw [this, List.range'_succ]
    simp only [List.flatMap_cons, Shape.inners, List.cons_append]
    refine List.Perm.cons _ ?_
    refine (List.Perm.append_left (s.inners ++ t.inners) ih).trans ?_
    rw [Nat.add_assoc]
    simp only [List.append_assoc]
    refine (List.perm_append_comm_assoc _ _ _).trans ?_
    refine (List.Perm.append_left t.inners (List.perm_append_comm_assoc _ _ _)).trans ?_
    refine (List.perm_append_comm_assoc _ _ _).trans ?_
    exact List.Perm.append_left _ (List.perm_append_comm_assoc _ _ _)

theorem needed_le {n : Nat} (h : n ≤ 1) : needed n = 0 := by rw [needed, if_pos h]

theorem needed_gt {n : Nat} (h : 1 < n) : needed n = (n + 1) / 2 + needed ((n + 1) / 2) := by
  rw [needed, if_neg (by omega)]

/-- Enough steps, and exactly as many nodes as were counted beforehand. -/
theorem buildUpS_ok (base : Nat) : ∀ (n k : Nat) (Ss : List Shape), Ss ≠ [] → Ss.length ≤ n + 1 →
    ∃ S, buildUpS base n k Ss = some S ∧ S.leaves = Ss.flatMap Shape.leaves ∧
      S.inners.Perm (Ss.flatMap Shape.inners ++ List.range' (base + k) (needed Ss.length)) := by
  intro n
  induction n with
  | zero =>
    intro k Ss h1 h2
    match Ss, h1, h2 with
    | [s], _, _ => exact ⟨s, rfl, by simp, by simp [needed_le]⟩
    | _ :: _ :: _, _, h => simp at h
  | succ n ih =>
    intro k Ss h1 h2
    match Ss, h1, h2 with
    | [s], _, _ => exact ⟨s, rfl, by simp, by simp [needed_le]⟩
    | a :: b :: rest, _, h =>
      have hl := pairUpS_length base k (a :: b :: rest)
      have hl' : (pairUpS base k (a :: b :: rest)).length = (rest.length + 1) / 2 + 1 := by
        rw [hl]; simp only [List.length_cons]; omega
      obtain ⟨S, e1, e2, e3⟩ := ih (k + (pairUpS base k (a :: b :: rest)).length) (pairUpS base k (a :: b :: rest))
        (by intro e; rw [e] at hl'; simp at hl') (by rw [hl']; simp only [List.length_cons] at h; omega)
      refine ⟨S, e1, by rw [e2, pairUpS_leaves], e3.trans ?_⟩
      rw [hl, needed_gt (by simp : 1 < (a :: b :: rest).length)]
      refine (List.Perm.append_right _ (pairUpS_inners base k _)).trans ?_
      rw [show base + (k + ((a :: b :: rest).length + 1) / 2) = base + k + 1 * (((a :: b :: rest).length + 1) / 2) by omega,
        ← List.range'_append]
      rw [← List.append_assoc]
      exact List.Perm.append_right _ List.perm_append_comm

theorem buildS_ok (base : Nat) (xs : List (Nat × Int)) (h : 2 ≤ xs.length) :
    ∃ S, buildS base xs = some S ∧ S.leaves = xs.map Prod.fst ∧ S.inners.Perm (List.range' base (needed xs.length)) := by
  have hl := bottomsS_length base 0 xs
  obtain ⟨S, e1, e2, e3⟩ := buildUpS_ok base (bottomsS base 0 xs).length (bottomsS base 0 xs).length (bottomsS base 0 xs)
    (by intro e; rw [e] at hl; simp at hl; omega) (by omega)
  refine ⟨S, e1, by rw [e2, bottomsS_leaves], e3.trans ?_⟩
  rw [bottomsS_inners, hl, needed_gt (by omega : 1 < xs.length)]
  have := List.range'_append (s := base) (m := (xs.length + 1) / 2) (n := needed ((xs.length + 1) / 2)) (step := 1)
  rw [Nat.one_mul] at this
  rw [Nat.add_zero, this]

/-- No chains yet. -/
def noCh : Ptr → Chain := fun _ => none

theorem view_bottomsS (base : Nat) (k : Nat) (xs : List (Nat × Int)) :
    (bottomsS base k xs).map (view noCh) = bottoms (xs.map Prod.snd) := by
  fun_induction bottomsS base k xs with
  | case1 => rfl
  | case2 => rfl
  | case3 => rfl
  | case4 k a b c rest ih =>
    rw [List.map_cons, ih]; rfl

theorem view_pairUpS (base : Nat) (k : Nat) (Ss : List Shape) :
    (pairUpS base k Ss).map (view noCh) = pairUp (Ss.map (view noCh)) := by
  fun_induction pairUpS base k Ss with
  | case1 => rfl
  | case2 => simp [pairUp, view, noCh, Chain.list]
  | case3 k s t rest ih => simp [pairUp, view, noCh, Chain.list, ← ih]

theorem view_buildUpS (base : Nat) : ∀ (n k : Nat) (Ss : List Shape),
    (buildUpS base n k Ss).map (view noCh) = buildUpN n (Ss.map (view noCh)) := by
  intro n
  induction n with
  | zero =>
    intro k Ss
    match Ss with
    | [] => rfl
    | [s] => rfl
    | _ :: _ :: _ => rfl
  | succ n ih =>
    intro k Ss
    match Ss with
    | [] => rfl
    | [s] => rfl
    | a :: b :: rest =>
      simp only [buildUpS, List.map_cons, buildUpN]
      rw [ih, view_pairUpS]; rfl

theorem view_buildS (base : Nat) (xs : List (Nat × Int)) : (buildS base xs).map (view noCh) = buildNodes (xs.map Prod.snd) := by
  unfold buildS buildNodes
  rw [view_buildUpS, view_bottomsS, ← view_bottomsS base 0, List.length_map]

/-! ## The code makes it -/

/-- The pool elements from `i` to `j` have been filled in; their chains are empty; nothing else
has changed. -/
structure Fill (nl nl' : Nat → Option Inner) (i j : Nat) : Prop where
  off : ∀ p, ¬ (i ≤ p ∧ p < j) → nl' p = nl p
  on : ∀ p, i ≤ p → p < j → ∃ n, nl' p = some n ∧ n.chain = none

theorem Fill.trans {nl nl1 nl2 : Nat → Option Inner} {i j k : Nat} (h1 : Fill nl nl1 i j) (h2 : Fill nl1 nl2 j k)
    (hij : i ≤ j) (hjk : j ≤ k) : Fill nl nl2 i k := by
  refine ⟨fun p hp => ?_, fun p ha hb => ?_⟩
  · rw [h2.off p (by omega), h1.off p (by omega)]
  · by_cases e : p < j
    · rw [h2.off p (by omega)]; exact h1.on p ha e
    · exact h2.on p (by omega) hb

theorem Fill.one (nl : Nat → Option Inner) (i : Nat) (n : Inner) (hn : n.chain = none) : Fill nl (upd nl i (some n)) i (i + 1) := by
  refine ⟨fun p hp => upd_ne _ _ (by omega), fun p ha hb => ⟨n, ?_, hn⟩⟩
  rw [show p = i by omega]; simp

theorem Fill.refl (nl : Nat → Option Inner) (i : Nat) : Fill nl nl i i := ⟨fun _ _ => rfl, fun _ _ _ => by omega⟩

theorem aw_touch_leaf {m : MemG L O R} {a : Nat} (h : Live m.lh a) {Q : Unit → MemG L O R → Prop} (q : Q () m) : aw (touch (.leaf a)) Q m :=
  aw_bind (aw_leaves (wp_deref h fun _ _ => aw_pure q))

theorem aw_touch_inner {m : MemG L O R} {p : Nat} {n : Inner} (h : m.nl p = some n) {Q : Unit → MemG L O R → Prop} (q : Q () m) :
    aw (touch (.inner p)) Q m :=
  aw_bind (aw_readInner h (aw_pure q))

/-- The end of `makeParent`. -/
theorem aw_makeParent {m : MemG L O R} {base size k : Nat} (hk : k < size) (hnew : m.nl (base + k) = some Inner.new) {l : Ptr}
    {r : Option Ptr} {lo hi : Int} (h1 : touch l m = .ok ((), m)) (h2 : ∀ q, r = some q → touch q m = .ok ((), m))
    (h3 : lowOf l m = .ok (lo, m)) (h4 : highOf l r m = .ok (hi, m)) {Q : Nat → MemG L O R → Prop}
    (q : Q (base + k) { m with nl := upd m.nl (base + k) (some ⟨lo, hi, none, some l, r⟩) }) :
    aw (makeParent base size k l r) Q m := by
  unfold makeParent
  rw [if_pos hk]
  cases r with
  | none =>
    exact aw_bind ⟨_, _, h1, aw_bind (aw_ret (aw_bind ⟨_, _, h3, aw_bind ⟨_, _, h4, aw_bind (aw_readInner hnew
      (aw_bind (aw_writeInner hnew (aw_pure q))))⟩⟩))⟩
  | some x =>
    exact aw_bind ⟨_, _, h1, aw_bind ⟨_, _, h2 x rfl, aw_bind ⟨_, _, h3, aw_bind ⟨_, _, h4, aw_bind (aw_readInner hnew
      (aw_bind (aw_writeInner hnew (aw_pure q))))⟩⟩⟩⟩

theorem aw_eq {α : Type} {p : ActG L O R α} {m : MemG L O R} {a : α} (h : aw p (fun b m' => b = a ∧ m' = m) m) : p m = .ok (a, m) := by
  obtain ⟨b, m', e, rfl, rfl⟩ := h
  exact e

theorem aw_upLevel (base size : Nat) (K : Nat → Int) : ∀ (Ss : List Shape) (k : Nat) (m : MemG L O R),
    (∀ S ∈ Ss, Held m.nl K S) → (∀ S ∈ Ss, ∀ p ∈ S.inners, p < base + k) →
    (∀ p, base + k ≤ p → p < base + size → m.nl p = some Inner.new) → k + (Ss.length + 1) / 2 ≤ size →
    aw (upLevel base size k (Ss.map Shape.addr)) (fun ps m' => ∃ nl', m' = { m with nl := nl' } ∧
      ps = (pairUpS base k Ss).map Shape.addr ∧ (∀ S ∈ pairUpS base k Ss, Held nl' K S) ∧
      Fill m.nl nl' (base + k) (base + (k + (Ss.length + 1) / 2))) m := by
  intro Ss k
  fun_induction pairUpS base k Ss with
  | case1 k =>
    intro m _ _ _ _
    exact aw_ret ⟨m.nl, rfl, rfl, by simp, by simpa using Fill.refl m.nl (base + k)⟩
  | case2 k s =>
    intro m hH hlt hnew hsz
    obtain ⟨n, e, el, eh⟩ := (hH s (by simp)).top
    simp only [List.map_cons, List.map_nil, upLevel]
    simp only [List.length_cons, List.length_nil] at hsz
    refine aw_bind (aw_makeParent (m := m) (l := .inner s.addr) (r := none) (lo := s.low) (hi := s.high) (by omega) (hnew _ (by omega) (by omega))
      (aw_eq (aw_touch_inner e ⟨rfl, rfl⟩)) (by simp)
      (aw_eq (aw_bind (aw_readInner e (aw_pure ⟨el, rfl⟩)))) (aw_eq (aw_bind (aw_readInner e (aw_pure ⟨eh, rfl⟩))))
      (aw_pure ?_))
    refine ⟨_, rfl, rfl, ?_, by simpa [Nat.add_assoc] using Fill.one m.nl (base + k) _ rfl⟩
    intro S hS
    simp only [List.mem_singleton] at hS
    subst hS
    refine ⟨by simp [strip], (hH s (by simp)).congr (fun p hp => ?_) (fun _ _ => rfl)⟩
    have := hlt s (by simp) p hp
    rw [upd_ne _ _ (by omega)]
  | case3 k s t rest ih =>
    intro m hH hlt hnew hsz
    obtain ⟨n, e, el, eh⟩ := (hH s (by simp)).top
    obtain ⟨n2, e2, el2, eh2⟩ := (hH t (by simp)).top
    simp only [List.map_cons, upLevel]
    simp only [List.length_cons] at hsz
    have hc : (rest.length + 1 + 1 + 1) / 2 = (rest.length + 1) / 2 + 1 := by omega
    refine aw_bind (aw_makeParent (m := m) (l := .inner s.addr) (r := some (.inner t.addr)) (lo := s.low) (hi := t.high) (by omega) (hnew _ (by omega) (by omega))
      (aw_eq (aw_touch_inner e ⟨rfl, rfl⟩)) (by rintro _ ⟨⟩; exact aw_eq (aw_touch_inner e2 ⟨rfl, rfl⟩))
      (aw_eq (aw_bind (aw_readInner e (aw_pure ⟨el, rfl⟩)))) (aw_eq (aw_bind (aw_readInner e2 (aw_pure ⟨eh2, rfl⟩))))
      (aw_bind ?_))
    have hoff : ∀ S ∈ s :: t :: rest, Held (upd m.nl (base + k) (some ⟨s.low, t.high, none, some (.inner s.addr), some (.inner t.addr)⟩)) K S := by
      intro S hS
      refine (hH S hS).congr (fun p hp => ?_) (fun _ _ => rfl)
      have := hlt S hS p hp
      rw [upd_ne _ _ (by omega)]
    refine aw_mono (ih _ (fun S hS => hoff S (by simp [hS])) (fun S hS p hp => by have := hlt S (by simp [hS]) p hp; omega)
      (fun p h1 h2 => ?_) (by omega)) ?_
    · show upd m.nl _ _ p = _
      rw [upd_ne _ _ (by omega)]; exact hnew p (by omega) h2
    · rintro ps m' ⟨nl', rfl, rfl, hH', hF⟩
      have hF' := (Fill.one m.nl (base + k) ⟨s.low, t.high, none, some (.inner s.addr), some (.inner t.addr)⟩ rfl).trans hF
        (by omega) (by omega)
      refine aw_pure ⟨nl', rfl, rfl, ?_, ?_⟩
      · intro S hS
        rcases List.mem_cons.1 hS with rfl | hS
        · refine ⟨?_, (hoff s (by simp)).congr (fun p hp => ?_) (fun _ _ => rfl),
            (hoff t (by simp)).congr (fun p hp => ?_) (fun _ _ => rfl)⟩
          · rw [hF.off _ (by omega)]; simp [strip]
          · have := hlt s (by simp) p hp
            rw [hF.off _ (by omega)]
          · have := hlt t (by simp) p hp
            rw [hF.off _ (by omega)]
        · exact hH' S hS
      · simp only [List.length_cons]
        rw [show base + (k + (rest.length + 1 + 1 + 1) / 2) = base + (k + 1 + (rest.length + 1) / 2) by omega]
        exact hF'

theorem aw_upLoop (base size : Nat) (K : Nat → Int) : ∀ (n k : Nat) (Ss : List Shape) (m : MemG L O R) (S : Shape),
    buildUpS base n k Ss = some S → (∀ S ∈ Ss, Held m.nl K S) → (∀ S ∈ Ss, ∀ p ∈ S.inners, p < base + k) →
    (∀ p, base + k ≤ p → p < base + size → m.nl p = some Inner.new) → k + needed Ss.length ≤ size →
    aw (upLoop base size n k (Ss.map Shape.addr)) (fun r m' => ∃ nl', m' = { m with nl := nl' } ∧ r = some S.addr ∧
      Held nl' K S ∧ Fill m.nl nl' (base + k) (base + (k + needed Ss.length))) m := by
  intro n
  induction n with
  | zero =>
    intro k Ss m S e hH hlt hnew hsz
    match Ss, e with
    | [s], e =>
      have : s = S := by simpa [buildUpS] using e
      subst this
      exact aw_ret ⟨m.nl, rfl, rfl, hH s (by simp), by simpa [needed_le] using Fill.refl m.nl (base + k)⟩
  | succ n ih =>
    intro k Ss m S e hH hlt hnew hsz
    match Ss, e with
    | [s], e =>
      have : s = S := by simpa [buildUpS] using e
      subst this
      exact aw_ret ⟨m.nl, rfl, rfl, hH s (by simp), by simpa [needed_le] using Fill.refl m.nl (base + k)⟩
    | a :: b :: rest, e =>
      simp only [buildUpS] at e
      have hnd := needed_gt (by simp : 1 < (a :: b :: rest).length)
      have hl := pairUpS_length base k (a :: b :: rest)
      rw [hnd] at hsz
      show aw (upLevel base size k ((a :: b :: rest).map Shape.addr) >>= fun ps => upLoop base size n (k + ps.length) ps) _ _
      refine aw_bind (aw_mono (aw_upLevel base size K (a :: b :: rest) k m hH hlt hnew (by omega)) ?_)
      rintro ps m' ⟨nl', rfl, rfl, hH', hF⟩
      rw [List.length_map]
      refine aw_mono (ih _ _ _ S e hH' (fun S hS p hp => ?_) (fun p h1 h2 => ?_) (by rw [hl]; omega)) ?_
      · have hm : p ∈ (pairUpS base k (a :: b :: rest)).flatMap Shape.inners := List.mem_flatMap.2 ⟨S, hS, hp⟩
        rw [(pairUpS_inners base k _).mem_iff, List.mem_append] at hm
        rcases hm with hm | hm
        · rw [List.mem_range'_1] at hm; omega
        · obtain ⟨T, hT, hp⟩ := List.mem_flatMap.1 hm
          have := hlt T hT p hp; omega
      · show nl' p = _
        rw [hF.off p (by omega)]; exact hnew p (by omega) h2
      · rintro r m'' ⟨nl'', rfl, rfl, h1, h2⟩
        refine ⟨nl'', rfl, rfl, h1, ?_⟩
        rw [hnd]
        rw [hl] at h2
        have := hF.trans h2 (by omega) (by omega)
        rwa [Nat.add_assoc] at this

variable {g0 : Pic L} {o : Nat} {as : List Nat} {ls : List (Mdds.FST.Leaf L)} {X : Nat → Prop}

theorem aw_bottomLoop (base size : Nat) : ∀ (fuel : Nat) (rest pre : List Nat) (k : Nat) (g : Pic L) (m : MemG L O R),
    rest ≠ [] → as = pre ++ rest → St g0 g m.lh o as ls X [.cur] → g.R (.var .cur) = rest.head? → rest.length < fuel →
    (∀ p, base + k ≤ p → p < base + size → m.nl p = some Inner.new) → k + (rest.length + 1) / 2 ≤ size →
    aw (bottomLoop base size fuel k) (fun ps m' => ∃ h' nl' g', m' = { m with lh := h', nl := nl' } ∧
      St g0 g' h' o as ls X [.cur] ∧ g'.K = g.K ∧ g'.W = g.W ∧ ps = (bottomsS base k (rest.map fun a => (a, g.K a))).map Shape.addr ∧
      (∀ S ∈ bottomsS base k (rest.map fun a => (a, g.K a)), Held nl' g.K S) ∧
      Fill m.nl nl' (base + k) (base + (k + (rest.length + 1) / 2))) m := by
  intro fuel
  induction fuel with
  | zero => intro rest pre k g m _ _ _ _ h; simp at h
  | succ fuel ih =>
    intro rest pre k g m hne hpre st hcur hfuel hnew hsz
    match rest, hne with
    | a :: rest, _ =>
    have hmem : ∀ x ∈ a :: rest, x ∈ as := fun x hx => by rw [hpre]; exact List.mem_append_right _ hx
    have ha := hmem a (by simp)
    have hfwd : Mdds.FST.Mem.Path g.N (a :: rest) none := by
      have := st.fwd
      rw [hpre, path_append] at this
      exact this.2
    have hNa : g.N a = rest.head? := by have := hfwd.1; simpa using this
    unfold bottomLoop
    refine aw_bind (aw_leaves (wp_bind (wp_get st.sat (wp_nonnull (a := a) (by simpa using hcur) (aw_bind (aw_leaves (wp_bind
      (wp_getNext st.sat (st.live ha) ?_))))))))
    rw [hNa]
    refine wp_setVar st (vs' := [.cur, .nxt]) (fun x hx => hmem x (List.mem_cons_of_mem _ (List.mem_of_mem_head? (by rw [hx]; rfl))))
      (by simp) (.inl (by simp)) fun h1 st1 => aw_bind (aw_leaves (wp_get st1.sat ?_))
    have hgv : (g.set (.root (.var .nxt)) rest.head?).R (.var .nxt) = rest.head? := by simp [Pic.set]
    rw [hgv]
    have hla : Live h1 a := st1.live ha
    -- after the parent has been made
    match rest, hmem, hfwd, hNa, st1, hsz, hfuel, hpre with
    | [], hmem, hfwd, hNa, st1, hsz, hfuel, hpre =>
      simp only [List.length_cons, List.length_nil] at hsz
      refine aw_bind (aw_makeParent (m := { m with lh := h1 }) (l := .leaf a) (r := none) (lo := g.K a) (hi := g.K a) (by omega) (hnew _ (by omega) (by omega))
        (aw_eq (aw_touch_leaf hla ⟨rfl, rfl⟩)) (by simp)
        (aw_eq (aw_leaves (wp_getKey st1.sat hla ⟨rfl, rfl⟩))) (aw_eq (aw_leaves (wp_getKey st1.sat hla ⟨rfl, rfl⟩))) ?_)
      refine aw_bind (aw_ret (aw_bind (aw_leaves ?_)))
      refine wp_dropVar st1 (vs' := [.cur]) (by simp) fun h2 st2 => aw_pure ⟨h2, _, _, rfl, st2, rfl, rfl, rfl, ?_, ?_⟩
      · intro S hS
        simp only [List.map_cons, List.map_nil, bottomsS, List.mem_singleton] at hS
        subst hS
        exact ⟨by simp [strip], rfl⟩
      · simpa [Nat.add_assoc] using Fill.one m.nl (base + k) _ rfl
    | [b], hmem, hfwd, hNa, st1, hsz, hfuel, hpre =>
      have hlb : Live h1 b := st1.live (hmem b (by simp))
      have hNb : (g.set (.root (.var .nxt)) (List.head? [b])).N b = none := by simpa [Pic.set] using hfwd.2.1
      simp only [List.length_cons, List.length_nil] at hsz
      refine aw_bind (aw_makeParent (m := { m with lh := h1 }) (l := .leaf a) (r := some (.leaf b)) (lo := g.K a) (hi := g.K b) (by omega) (hnew _ (by omega) (by omega))
        (aw_eq (aw_touch_leaf hla ⟨rfl, rfl⟩)) (by rintro _ ⟨⟩; exact aw_eq (aw_touch_leaf hlb ⟨rfl, rfl⟩))
        (aw_eq (aw_leaves (wp_getKey st1.sat hla ⟨rfl, rfl⟩)))
        (aw_eq (aw_bind (aw_leaves (wp_getNext st1.sat hlb (by rw [hNb]; exact aw_leaves (wp_getKey st1.sat hlb ⟨rfl, rfl⟩)))))) ?_)
      refine aw_bind (aw_leaves (wp_getNext st1.sat hlb ?_))
      rw [hNb]
      refine aw_bind (aw_leaves ?_)
      refine wp_dropVar st1 (vs' := [.cur]) (by simp) fun h2 st2 => aw_pure ⟨h2, _, _, rfl, st2, rfl, rfl, rfl, ?_, ?_⟩
      · intro S hS
        simp only [List.map_cons, List.map_nil, bottomsS, List.mem_singleton] at hS
        subst hS
        exact ⟨by simp [strip], rfl, rfl⟩
      · simpa [Nat.add_assoc] using Fill.one m.nl (base + k) _ rfl
    | b :: c :: rest, hmem, hfwd, hNa, st1, hsz, hfuel, hpre =>
      have hlb : Live h1 b := st1.live (hmem b (by simp))
      have hlc : Live h1 c := st1.live (hmem c (by simp))
      have hNb : (g.set (.root (.var .nxt)) (List.head? (b :: c :: rest))).N b = some c := by simpa [Pic.set] using hfwd.2.1
      simp only [List.length_cons] at hsz hfuel
      refine aw_bind (aw_makeParent (m := { m with lh := h1 }) (l := .leaf a) (r := some (.leaf b)) (lo := g.K a) (hi := g.K c) (by omega) (hnew _ (by omega) (by omega))
        (aw_eq (aw_touch_leaf hla ⟨rfl, rfl⟩)) (by rintro _ ⟨⟩; exact aw_eq (aw_touch_leaf hlb ⟨rfl, rfl⟩))
        (aw_eq (aw_leaves (wp_getKey st1.sat hla ⟨rfl, rfl⟩)))
        (aw_eq (aw_bind (aw_leaves (wp_getNext st1.sat hlb (by rw [hNb]; exact aw_leaves (wp_getKey st1.sat hlc ⟨rfl, rfl⟩)))))) ?_)
      refine aw_bind (aw_leaves (wp_getNext st1.sat hlb ?_))
      rw [hNb]
      refine aw_bind (aw_leaves ?_)
      refine wp_setVar st1 (vs' := [.cur, .nxt]) (fun x hx => hmem x (by cases hx; simp)) (by simp) (.inl (by simp)) fun h2 st2 =>
        aw_bind (aw_leaves ?_)
      refine wp_dropVar st2 (vs' := [.cur]) (by simp) fun h3 st3 => aw_bind ?_
      refine aw_mono (ih (c :: rest) (pre ++ [a, b]) (k + 1) _ _ (by simp) (by rw [hpre]; simp) st3
        (by simp [Pic.set, upd]) (by simp only [List.length_cons]; omega) (fun p h1 h2 => ?_)
        (by simp only [List.length_cons]; omega)) ?_
      · show upd m.nl _ _ p = _
        rw [upd_ne _ _ (by omega)]; exact hnew p (by omega) h2
      · rintro ps m' ⟨h4, nl4, g4, rfl, st4, hK, hW, rfl, hH, hF⟩
        have hF' := (Fill.one m.nl (base + k) ⟨g.K a, g.K c, none, some (.leaf a), some (.leaf b)⟩ rfl).trans hF
          (by omega) (by omega)
        refine aw_pure ⟨h4, nl4, g4, rfl, st4, hK, hW, rfl, ?_, ?_⟩
        · intro S hS
          simp only [List.map_cons, bottomsS] at hS
          rcases List.mem_cons.1 hS with rfl | hS
          · refine ⟨?_, rfl, rfl⟩
            rw [hF.off _ (by omega)]; simp [strip]
          · exact hH S (by simpa [Pic.set] using hS)
        · simp only [List.length_cons]
          rw [show base + (k + (rest.length + 1 + 1 + 1 + 1) / 2) = base + (k + 1 + (rest.length + 1 + 1) / 2) by omega]
          exact hF'

/-- `tree_builder::build` on two or more leaves. -/
theorem aw_build {base size : Nat} {g : Pic L} {m : MemG L O R} (h2 : 2 ≤ as.length) (st : St g0 g m.lh o as ls X [])
    (hsz : needed as.length = size) (hnew : ∀ p, base ≤ p → p < base + size → m.nl p = some Inner.new) :
    aw (build o base size) (fun r m' => ∃ h' nl' g' S, m' = { m with lh := h', nl := nl' } ∧ St g0 g' h' o as ls X [] ∧
      g'.K = g.K ∧ g'.W = g.W ∧ buildS base (as.map fun a => (a, g.K a)) = some S ∧ r = some S.addr ∧ Held nl' g.K S ∧
      Fill m.nl nl' base (base + size)) m := by
  obtain ⟨S, eS, eL, eI⟩ := buildS_ok base (as.map fun a => (a, g.K a)) (by simpa using h2)
  unfold build
  refine aw_bind (aw_leaves (wp_get st.sat ?_))
  rw [st.left]
  obtain ⟨a, rest, rfl⟩ : ∃ a rest, as = a :: rest := by
    cases as with
    | nil => simp at h2
    | cons a rest => exact ⟨a, rest, rfl⟩
  simp only [List.head?_cons]
  refine aw_bind (aw_leaves (wp_setVar st (vs' := [.cur]) (by simp) (by simp) (.inl (by simp)) fun h1 st1 => ?_))
  refine aw_bind (aw_leaves (wp_loopBound st1.sat ?_))
  have hlen := st1.length_le
  have hnd := needed_gt (by omega : 1 < (a :: rest).length)
  refine aw_bind (aw_mono (aw_bottomLoop base size _ (a :: rest) [] 0 _ _ (by simp) rfl st1 (by simp [Pic.set])
    (by omega) (by simpa using hnew) (by omega)) ?_)
  rintro ps m' ⟨h2', nl2, g2, rfl, st2, hK2, hW2, rfl, hH2, hF2⟩
  obtain ⟨B, hB⟩ : ∃ B, B = bottomsS base 0 ((a :: rest).map fun a => (a, g.K a)) := ⟨_, rfl⟩
  have hl2 : B.length = ((a :: rest).length + 1) / 2 := by rw [hB, bottomsS_length, List.length_map]
  have eS' : buildUpS base B.length B.length B = some S := by rw [hB]; exact eS
  have hH2' : ∀ S ∈ B, Held nl2 g.K S := by rw [hB]; exact hH2
  rw [List.length_map]
  show aw (upLoop base size (bottomsS base 0 ((a :: rest).map fun a => (a, g.K a))).length
    (bottomsS base 0 ((a :: rest).map fun a => (a, g.K a))).length ((bottomsS base 0 ((a :: rest).map fun a => (a, g.K a))).map Shape.addr) >>= _) _ _
  rw [← hB]
  refine aw_bind (aw_mono (aw_upLoop base size g.K B.length B.length B _ S eS' hH2' (fun T hT p hp => ?_) (fun p h1 h2 => ?_)
    (by rw [hl2]; omega)) ?_)
  · have hm : p ∈ B.flatMap Shape.inners := List.mem_flatMap.2 ⟨T, hT, hp⟩
    rw [hB, bottomsS_inners, List.mem_range'_1, List.length_map] at hm
    omega
  · show nl2 p = _
    rw [hF2.off p (by omega)]; exact hnew p (by omega) h2
  · rintro r m' ⟨nl3, rfl, rfl, hH3, hF3⟩
    refine aw_bind (aw_leaves (wp_dropVar st2 (vs' := []) (by simp) fun h4 st4 => aw_pure ?_))
    refine ⟨h4, nl3, _, S, rfl, st4, hK2, hW2, eS, rfl, hH3, ?_⟩
    rw [hl2] at hF3
    rw [Nat.zero_add, Nat.add_zero] at hF2
    have := hF2.trans hF3 (by omega) (by omega)
    rwa [show base + size = base + ((((a :: rest).length + 1) / 2) + needed (((a :: rest).length + 1) / 2)) by omega]

end Mdds.SegTree.Mem
