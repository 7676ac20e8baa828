import Verif.FST.HeapLemmas
import Mathlib.Data.List.Perm.Subperm

/-!
# Chains of leaves in memory

How the leaves of one container lie in memory, and how the search loops walk along them.
-/
namespace Mdds.FST.Mem

variable {V : Type}

/-- Following `N` from the first address runs through the list and ends with `n`. -/
def Path (N : Nat → Option Nat) : List Nat → Option Nat → Prop
  | [], _ => True
  | a :: as, n => N a = as.head?.or n ∧ Path N as n

@[simp] theorem path_nil (N : Nat → Option Nat) (n : Option Nat) : Path N [] n := trivial

@[simp] theorem path_cons (N : Nat → Option Nat) (a : Nat) (as : List Nat) (n : Option Nat) :
    Path N (a :: as) n ↔ N a = as.head?.or n ∧ Path N as n := Iff.rfl

theorem path_append (N : Nat → Option Nat) (xs ys : List Nat) (n : Option Nat) :
    Path N (xs ++ ys) n ↔ Path N xs (ys.head?.or n) ∧ Path N ys n := by
  induction xs with
  | nil => simp
  | cons a t ih =>
    simp only [List.cons_append, path_cons, ih]
    cases t with
    | nil => simp
    | cons b t => simp; tauto

theorem path_upd {N : Nat → Option Nat} {a : Nat} {v n : Option Nat} {xs : List Nat} (h : a ∉ xs) :
    Path (upd N a v) xs n ↔ Path N xs n := by
  induction xs with
  | nil => simp
  | cons b t ih =>
    simp only [List.mem_cons, not_or] at h
    simp only [path_cons, ih h.2, upd_ne _ _ (Ne.symm h.1)]

theorem path_congr {N N' : Nat → Option Nat} {n : Option Nat} {xs : List Nat} (h : ∀ a ∈ xs, N' a = N a) :
    Path N' xs n ↔ Path N xs n := by
  induction xs with
  | nil => simp
  | cons b t ih =>
    simp only [path_cons, ih (fun a ha => h a (by simp [ha])), h b (by simp)]

theorem path_closed {N : Nat → Option Nat} {xs : List Nat} (h : Path N xs none) {a b : Nat} (ha : a ∈ xs)
    (e : N a = some b) : b ∈ xs := by
  induction xs with
  | nil => simp at ha
  | cons x t ih =>
    rw [path_cons] at h
    rcases List.mem_cons.1 ha with rfl | ha
    · rw [h.1] at e
      cases t with
      | nil => simp at e
      | cons y t => simp at e; simp [e]
    · simp [ih h.2 ha]

/-- Key and value the picture shows for an address. -/
def Pic.D (g : Pic V) (a : Nat) : Leaf V := (g.K a, g.W a)

theorem map_D_congr {g g' : Pic V} {as : List Nat} (hK : ∀ a ∈ as, g'.K a = g.K a) (hW : ∀ a ∈ as, g'.W a = g.W a) :
    as.map g'.D = as.map g.D := by
  apply List.map_congr_left
  intro a ha
  simp [Pic.D, hK a ha, hW a ha]

/-- The surroundings of a container: the addresses `X` of everything else.  They do not link
into the container, and no owning pointer outside the container leads into it. -/
structure Env (g0 : Pic V) (o : Nat) (X : Nat → Prop) : Prop where
  closedN : ∀ a b, X a → g0.N a = some b → X b
  closedP : ∀ a b, X a → g0.P a = some b → X b
  roots : ∀ r a, r ≠ .left o → r ≠ .right o → g0.R r = some a → X a
  vars : ∀ x, g0.R (.var x) = none
  lt : ∀ a, X a → a < g0.fr

/-- In the memory `h`, pictured by `g`, container `o` has its leaves at the addresses `as` in
this order; they hold the keys and values `ls`; all live nodes are leaves of `o` or in `X`;
everything in `X` and all owning pointers elsewhere are as in `g0`; the local variables in `vs`
may point to leaves of `o` or to nodes in `X`, all others are null. -/
structure St (g0 g : Pic V) (h : Heap V) (o : Nat) (as : List Nat) (ls : List (Leaf V)) (X : Nat → Prop)
    (vs : List Var) : Prop where
  sat : Sat g h
  left : g.R (.left o) = as.head?
  right : g.R (.right o) = as.getLast?
  fwd : Path g.N as none
  bwd : Path g.P as.reverse none
  data : as.map g.D = ls
  nodup : as.Nodup
  disj : ∀ a ∈ as, ¬ X a
  vars : ∀ x a, g.R (.var x) = some a → (a ∈ as ∨ X a) ∧ x ∈ vs
  roots : ∀ r, r ≠ .left o → r ≠ .right o → (∀ x, r ≠ .var x) → g.R r = g0.R r
  frame : ∀ a, X a → g.N a = g0.N a ∧ g.P a = g0.P a ∧ g.K a = g0.K a ∧ g.W a = g0.W a
  mono : g0.fr ≤ g.fr
  U : ∀ a, g.U a → a ∈ as ∨ X a

/-- Deleted means deleted: nodes that nothing in `S` points to and that do not point to each
other in a cycle (links go up along `rk`) are no longer there. -/
theorem Sat.collect {g : Pic V} {h : Heap V} (s : Sat g h) (S : Nat → Prop) (rk : Nat → Nat)
    (hR : ∀ r a, g.R r = some a → S a) (hN : ∀ a b, S a → g.N a = some b → S b)
    (hP : ∀ a b, S a → g.P a = some b → S b)
    (hM : ∀ a, g.U a → ¬ S a → ∀ b, g.N a = some b ∨ g.P a = some b → S b ∨ rk a < rk b) :
    Sat { g with U := S } h := by
  have key : ∀ n a, rk a = n → Live h a → S a := by
    intro n
    induction n using Nat.strongRecOn with
    | _ n ih =>
      intro a hn ha
      by_contra hS
      have step : ∀ b, Live h b → g.N b = some a ∨ g.P b = some a → False := by
        intro b hb e
        by_cases hb' : S b
        · rcases e with e | e
          · exact hS (hN b a hb' e)
          · exact hS (hP b a hb' e)
        · rcases hM b (s.inU hb) hb' a e with h | h
          · exact hS h
          · exact hb' (ih (rk b) (by omega) b rfl hb)
      rcases s.held ha with ⟨r, e⟩ | ⟨b, hb, e⟩ | ⟨b, hb, e⟩
      · exact hS (hR r a e)
      · exact step b hb (.inl e)
      · exact step b hb (.inr e)
  exact s.congr (fun _ _ => rfl) (fun _ _ => rfl) (fun _ _ => rfl) (fun _ _ => rfl) (fun _ => rfl)
    (fun a ha _ => key _ a rfl ha) rfl

/-- Assemble a `St` from its parts; nodes that are neither leaves nor in `X` must not link to
each other in a cycle, and then they are gone. -/
theorem St.build {g0 g : Pic V} {h : Heap V} {o : Nat} {as : List Nat} {ls : List (Leaf V)} {X : Nat → Prop}
    {vs : List Var} (env : Env g0 o X) (sat : Sat g h)
    (left : g.R (.left o) = as.head?) (right : g.R (.right o) = as.getLast?) (fwd : Path g.N as none)
    (bwd : Path g.P as.reverse none) (data : as.map g.D = ls) (nodup : as.Nodup) (disj : ∀ a ∈ as, ¬ X a)
    (vars : ∀ x a, g.R (.var x) = some a → (a ∈ as ∨ X a) ∧ x ∈ vs)
    (roots : ∀ r, r ≠ .left o → r ≠ .right o → (∀ x, r ≠ .var x) → g.R r = g0.R r)
    (frame : ∀ a, X a → g.N a = g0.N a ∧ g.P a = g0.P a ∧ g.K a = g0.K a ∧ g.W a = g0.W a)
    (mono : g0.fr ≤ g.fr)
    (rk : Nat → Nat)
    (hM : ∀ a, g.U a → a ∉ as → ¬ X a → ∀ b, g.N a = some b ∨ g.P a = some b → (b ∈ as ∨ X b) ∨ rk a < rk b) :
    St g0 { g with U := fun a => a ∈ as ∨ X a } h o as ls X vs := by
  refine ⟨sat.collect (fun a => a ∈ as ∨ X a) rk (fun r a e => ?_) (fun a b ha e => ?_) (fun a b ha e => ?_)
    (fun a hU hS b e => hM a hU (fun h => hS (.inl h)) (fun h => hS (.inr h)) b e), left, right, fwd, bwd, data, nodup,
    disj, vars, roots, frame, mono, fun a ha => ha⟩
  · by_cases e1 : r = .left o
    · subst e1; left; rw [left] at e; exact List.mem_of_mem_head? e
    · by_cases e2 : r = .right o
      · subst e2; left; rw [right] at e; exact List.mem_of_getLast? e
      · cases r with
        | var x => exact (vars x a e).1
        | left p => right; rw [roots _ e1 e2 (fun x => by simp)] at e; exact env.roots _ a e1 e2 e
        | right p => right; rw [roots _ e1 e2 (fun x => by simp)] at e; exact env.roots _ a e1 e2 e
  · rcases ha with ha | ha
    · exact .inl (path_closed fwd ha e)
    · right; rw [(frame a ha).1] at e; exact env.closedN a b ha e
  · rcases ha with ha | ha
    · left; simpa using path_closed bwd (List.mem_reverse.2 ha) e
    · right; rw [(frame a ha).2.1] at e; exact env.closedP a b ha e

theorem path_live {g : Pic V} {h : Heap V} (s : Sat g h) : ∀ (as : List Nat) (n : Option Nat), Path g.N as n →
    (∀ a, as.head? = some a → Live h a) → ∀ a ∈ as, Live h a := by
  intro as
  induction as with
  | nil => intro n _ _ a ha; simp at ha
  | cons x t ih =>
    intro n hp hh a ha
    rw [path_cons] at hp
    have hx := hh x rfl
    rcases List.mem_cons.1 ha with rfl | ha
    · exact hx
    · refine ih n hp.2 (fun b hb => s.live_next hx (by rw [hp.1, hb]; rfl)) a ha

theorem St.live {g0 g : Pic V} {h : Heap V} {o : Nat} {as : List Nat} {ls : List (Leaf V)} {X : Nat → Prop}
    {vs : List Var} (st : St g0 g h o as ls X vs) {a : Nat} (ha : a ∈ as) : Live h a :=
  path_live st.sat as none st.fwd (fun b hb => st.sat.live_root (r := .left o) (by rw [st.left, hb])) a ha

theorem St.lt {g0 g : Pic V} {h : Heap V} {o : Nat} {as : List Nat} {ls : List (Leaf V)} {X : Nat → Prop}
    {vs : List Var} (st : St g0 g h o as ls X vs) {a : Nat} (ha : a ∈ as) : a < g.fr :=
  st.sat.lt_fr (st.live ha)

theorem St.fr_notin {g0 g : Pic V} {h : Heap V} {o : Nat} {as : List Nat} {ls : List (Leaf V)} {X : Nat → Prop}
    {vs : List Var} (st : St g0 g h o as ls X vs) : g.fr ∉ as := fun ha => by
  have := st.lt ha; omega

theorem St.fr_notX {g0 g : Pic V} {h : Heap V} {o : Nat} {as : List Nat} {ls : List (Leaf V)} {X : Nat → Prop}
    {vs : List Var} (st : St g0 g h o as ls X vs) (env : Env g0 o X) : ¬ X g.fr := fun ha => by
  have := env.lt _ ha
  have := st.mono
  omega

theorem length_le_of_lt {l : List Nat} (hn : l.Nodup) {n : Nat} (h : ∀ a ∈ l, a < n) : l.length ≤ n := by
  have : l.Subperm (List.range n) := List.subperm_of_subset hn (fun a ha => by simpa using h a ha)
  simpa using this.length_le

theorem St.length_le {g0 g : Pic V} {h : Heap V} {o : Nat} {as : List Nat} {ls : List (Leaf V)} {X : Nat → Prop}
    {vs : List Var} (st : St g0 g h o as ls X vs) : as.length ≤ g.fr :=
  length_le_of_lt st.nodup fun _ ha => st.lt ha

/-! ## The search loops -/

theorem wp_insPosP {g : Pic V} {h : Heap V} (s : Sat g h) (key : Int) (bs : List Nat) (hp : Path g.N bs none)
    (hh : ∀ a, bs.head? = some a → Live h a) (fuel : Nat) (hf : bs.length < fuel) {Q : Option Nat → Heap V → Prop}
    (q : Q (bs.find? fun a => decide (key ≤ g.K a)) h) : wp (insPosP key fuel bs.head?) Q h := by
  induction bs generalizing fuel with
  | nil =>
    cases fuel with
    | zero => simp at hf
    | succ f => exact wp_ret (by simpa using q)
  | cons a t ih =>
    cases fuel with
    | zero => simp at hf
    | succ f =>
      rw [path_cons] at hp
      have ha := hh a rfl
      show wp (insPosP key (f + 1) (some a)) Q h
      unfold insPosP
      refine wp_bind (wp_getKey s ha ?_)
      by_cases hk : key ≤ g.K a
      · rw [if_pos hk]
        exact wp_ret (by simpa [hk] using q)
      · rw [if_neg hk]
        refine wp_bind (wp_getNext s ha ?_)
        rw [hp.1, Option.or_none]
        refine ih hp.2 (fun b hb => s.live_next ha (by rw [hp.1, hb]; rfl)) f (by simp at hf; omega) ?_
        simpa [hk] using q

theorem wp_insPosRevP {g : Pic V} {h : Heap V} (s : Sat g h) (key : Int) (bs : List Nat) (hp : Path g.P bs none)
    (hh : ∀ a, bs.head? = some a → Live h a) (fuel : Nat) (hf : bs.length < fuel) {Q : Option Nat → Heap V → Prop}
    (q : Q (bs.find? fun a => decide (g.K a < key)) h) : wp (insPosRevP key fuel bs.head?) Q h := by
  induction bs generalizing fuel with
  | nil =>
    cases fuel with
    | zero => simp at hf
    | succ f => exact wp_ret (by simpa using q)
  | cons a t ih =>
    cases fuel with
    | zero => simp at hf
    | succ f =>
      rw [path_cons] at hp
      have ha := hh a rfl
      show wp (insPosRevP key (f + 1) (some a)) Q h
      unfold insPosRevP
      refine wp_bind (wp_getKey s ha ?_)
      by_cases hk : g.K a < key
      · rw [if_pos hk]
        exact wp_ret (by simpa [hk] using q)
      · rw [if_neg hk]
        refine wp_bind (wp_getPrev s ha ?_)
        rw [hp.1, Option.or_none]
        refine ih hp.2 (fun b hb => s.live_prev ha (by rw [hp.1, hb]; rfl)) f (by simp at hf; omega) ?_
        simpa [hk] using q

/-- The position the forward search finds, as an index. -/
theorem find_insPos (g : Pic V) (as : List Nat) (key : Int) (i : Nat) :
    (as.drop i).find? (fun a => decide (key ≤ g.K a)) = (insPos (as.map g.D) key i).bind (as[·]?) := by
  have aux : ∀ bs : List Nat, bs.find? (fun a => decide (key ≤ g.K a)) =
      ((bs.map g.D).findIdx? (fun n => decide (key ≤ n.1))).bind (bs[·]?) := by
    intro bs
    induction bs with
    | nil => simp
    | cons b t ih =>
      by_cases hk : key ≤ g.K b
      · simp [hk, Pic.D, List.findIdx?_cons]
      · rw [List.find?_cons_of_neg (by simpa using hk), ih, List.map_cons, List.findIdx?_cons]
        simp only [Pic.D, hk, decide_false, Bool.false_eq_true, if_false]
        cases (List.map g.D t).findIdx? (fun n => decide (key ≤ n.1)) <;> simp
  rw [insPos, aux, List.map_drop]
  cases ((as.map g.D).drop i).findIdx? (fun n => decide (key ≤ n.1)) with
  | none => simp
  | some j => simp [List.getElem?_drop]

/-- The position the backward search finds, as an index. -/
theorem find_insPosRev [DecidableEq V] (g : Pic V) (key : Int) (as : List Nat) (i : Nat) (hi : i < as.length) :
    ((as.take (i + 1)).reverse).find? (fun a => decide (g.K a < key)) =
      (insPosRev (as.map g.D) key i).bind (as[·]?) := by
  induction i with
  | zero =>
    obtain ⟨a, t, rfl⟩ : ∃ a t, as = a :: t := by cases as with
      | nil => simp at hi
      | cons a t => exact ⟨a, t, rfl⟩
    by_cases hk : g.K a < key <;> simp [insPosRev, Pic.D, hk]
  | succ i ih =>
    have e : as.take (i + 1 + 1) = as.take (i + 1) ++ [as[i + 1]] := by
      rw [List.take_append_getElem]
    rw [e, List.reverse_append, List.reverse_singleton, List.singleton_append]
    have e2 : (as.map g.D)[i + 1]? = some (g.D as[i + 1]) := by simp [hi]
    simp only [insPosRev, e2]
    by_cases hk : g.K as[i + 1] < key
    · simp [Pic.D, hk, hi]
    · rw [List.find?_cons_of_neg (by simpa using hk), ih (by omega)]
      simp [Pic.D, hk]

end Mdds.FST.Mem
