import Verif.Quad.HeapLemmas
/-!
Reference counts of the `point_quad_tree` heap in general: every count is the number of pointers to the node, whatever the
shape of the pointers.  Releasing pointers then never touches a deleted node.
-/
namespace Mdds.Quad

variable {V : Type}

@[simp] theorem obind_err {α β : Type} (e : Err) (f : α → Outcome β) : Outcome.bind (.err e) f = .err e := rfl

/-- Sum of `f 0, …, f (n - 1)`. -/
def total (f : Nat → Nat) : Nat → Nat
  | 0 => 0
  | n + 1 => total f n + f n

theorem total_congr {f g : Nat → Nat} {n : Nat} (h : ∀ b, b < n → f b = g b) : total f n = total g n := by
  induction n with
  | zero => rfl
  | succ n ih => simp only [total, ih (fun b hb => h b (by omega)), h n (by omega)]

theorem total_upd {f g : Nat → Nat} {k n : Nat} (hk : k < n) (h : ∀ b, b ≠ k → f b = g b) : total f n + g k = total g n + f k := by
  induction n with
  | zero => omega
  | succ n ih =>
    simp only [total]
    by_cases e : k = n
    · subst e
      rw [total_congr (f := f) (g := g) (fun b hb => h b (by omega))]; omega
    · have := ih (by omega)
      rw [h n (by omega)]; omega

theorem le_total {f : Nat → Nat} {k n : Nat} (hk : k < n) : f k ≤ total f n := by
  induction n with
  | zero => omega
  | succ n ih =>
    simp only [total]
    by_cases e : k = n
    · subst e; omega
    · have := ih (by omega); omega

/-- The five pointers of a node. -/
def Cell.ptrs (c : Cell V) : List (Option Nat) := [c.sw, c.se, c.nw, c.ne, c.par]

/-- How many of the pointers of a node lead to `a`. -/
def hit (o : Option (Cell V)) (a : Nat) : Nat :=
  match o with
  | none => 0
  | some c => c.ptrs.count (some a)

/-- The count in a node (0 for a deleted one). -/
def Mem.rcOf (m : Mem V) (a : Nat) : Nat :=
  match m.cell a with
  | none => 0
  | some c => c.rc

/-- Number of pointers in nodes that lead to `a`. -/
def refs (m : Mem V) (a : Nat) : Nat := total (fun b => hit (m.cell b) a) m.next

/-- Number of nodes. -/
def live (m : Mem V) : Nat := total (fun b => if (m.cell b).isSome then 1 else 0) m.next

/-- The counts are right when the program holds `H a` pointers to node `a` besides those in nodes. -/
structure RC (m : Mem V) (H : Nat → Nat) : Prop where
  fresh : ∀ b, m.next ≤ b → m.cell b = none
  cnt : ∀ a, m.rcOf a = refs m a + H a

/-- One if the pointer leads to `b`. -/
def leads (o : Option Nat) (b : Nat) : Nat := if o = some b then 1 else 0

/-- One more pointer held. -/
def hold (H : Nat → Nat) (o : Option Nat) : Nat → Nat := fun b => H b + leads o b

/-- More pointers held. -/
def holds (H : Nat → Nat) (l : List Nat) : Nat → Nat := fun b => H b + l.count b

@[simp] theorem hold_none (H : Nat → Nat) : hold H none = H := by funext b; simp [hold, leads]
theorem hold_self (H : Nat → Nat) (a : Nat) : hold H (some a) a = H a + 1 := by simp [hold, leads]
theorem hold_le (H : Nat → Nat) (o : Option Nat) (a : Nat) : H a ≤ hold H o a := Nat.le_add_right _ _
theorem hold_comm (H : Nat → Nat) (o p : Option Nat) : hold (hold H o) p = hold (hold H p) o := by funext b; simp only [hold]; omega
@[simp] theorem holds_nil (H : Nat → Nat) : holds H [] = H := by funext b; simp [holds]
theorem holds_le (H : Nat → Nat) (l : List Nat) (a : Nat) : H a ≤ holds H l a := Nat.le_add_right _ _
theorem holds_cons (H : Nat → Nat) (a : Nat) (l : List Nat) : holds H (a :: l) = holds (hold H (some a)) l := by
  funext b; simp only [holds, hold, leads, List.count_cons, Option.some.injEq]
  by_cases h : a = b <;> simp [h] <;> omega
theorem holds_append (H : Nat → Nat) (l k : List Nat) : holds H (l ++ k) = holds (holds H l) k := by
  funext b; simp only [holds, List.count_append]; omega
theorem hold_holds (H : Nat → Nat) (o : Option Nat) (l : List Nat) : hold (holds H l) o = holds (hold H o) l := by
  funext b; simp only [hold, holds]; omega

theorem lt_next {m : Mem V} {H : Nat → Nat} (h : RC m H) {a : Nat} {c : Cell V} (hc : m.cell a = some c) : a < m.next := by
  by_contra hn
  rw [h.fresh a (by omega)] at hc; cases hc

theorem hit_le {m : Mem V} {H : Nat → Nat} (h : RC m H) {b : Nat} {c : Cell V} (hc : m.cell b = some c) (a : Nat) :
    c.ptrs.count (some a) ≤ refs m a := by
  have := le_total (f := fun b => hit (m.cell b) a) (lt_next h hc)
  simp only [hit, hc] at this
  exact this

theorem RC.live {m : Mem V} {H : Nat → Nat} (h : RC m H) {a : Nat} (hp : 0 < refs m a + H a) : ∃ c, m.cell a = some c := by
  have := h.cnt a
  cases hc : m.cell a with
  | none => simp only [Mem.rcOf, hc] at this; omega
  | some c => exact ⟨c, rfl⟩

theorem RC.held {m : Mem V} {H : Nat → Nat} (h : RC m H) {a : Nat} (hp : 0 < H a) : ∃ c, m.cell a = some c := h.live (by omega)

theorem RC.ptr {m : Mem V} {H : Nat → Nat} (h : RC m H) {b a : Nat} {c : Cell V} (hc : m.cell b = some c) (hm : some a ∈ c.ptrs) :
    ∃ c, m.cell a = some c := by
  have := hit_le h hc a
  have h0 : 0 < c.ptrs.count (some a) := List.count_pos_iff.2 hm
  exact h.live (by omega)

theorem RC.kid {m : Mem V} {H : Nat → Nat} (h : RC m H) {b a : Nat} {c : Cell V} {q : Quadrant} (hc : m.cell b = some c)
    (hk : c.kid q = some a) : ∃ c, m.cell a = some c :=
  h.ptr hc (by cases q <;> simp only [Cell.kid] at hk <;> simp [Cell.ptrs, hk])

theorem RC.par {m : Mem V} {H : Nat → Nat} (h : RC m H) {b a : Nat} {c : Cell V} (hc : m.cell b = some c)
    (hk : c.par = some a) : ∃ c, m.cell a = some c :=
  h.ptr hc (by simp [Cell.ptrs, hk])

theorem refs_put (m : Mem V) {a : Nat} (o : Option (Cell V)) (ha : a < m.next) (b : Nat) :
    refs (m.put a o) b + hit (m.cell a) b = refs m b + hit o b := by
  have := total_upd (f := fun x => hit ((m.put a o).cell x) b) (g := fun x => hit (m.cell x) b) (k := a) (n := m.next) ha
    (fun x hx => by simp only [put_ne m o hx])
  simp only [put_same] at this
  exact this

theorem live_put (m : Mem V) {a : Nat} (o : Option (Cell V)) (ha : a < m.next) :
    live (m.put a o) + (if (m.cell a).isSome then 1 else 0) = live m + (if o.isSome then 1 else 0) := by
  have := total_upd (f := fun x => if ((m.put a o).cell x).isSome then 1 else 0) (g := fun x => if (m.cell x).isSome then 1 else 0)
    (k := a) (n := m.next) ha (fun x hx => by simp only [put_ne m o hx])
  simp only [put_same] at this
  exact this

theorem live_le (m : Mem V) : live m ≤ m.next := by
  unfold live
  generalize m.next = n
  induction n with
  | zero => exact Nat.le_refl _
  | succ n ih => simp only [total]; split <;> omega

theorem rcOf_put_ne (m : Mem V) {a b : Nat} (o : Option (Cell V)) (h : b ≠ a) : (m.put a o).rcOf b = m.rcOf b := by
  simp only [Mem.rcOf, put_ne m o h]

theorem rcOf_put_same (m : Mem V) (a : Nat) (c : Cell V) : (m.put a (some c)).rcOf a = c.rc := by
  simp only [Mem.rcOf, put_same]

/-- Changing a node: the pointers it gives up are held afterwards, those it gains must have been held. -/
theorem RC.put {m : Mem V} {H H' : Nat → Nat} (h : RC m H) {a : Nat} {c c' : Cell V} (hc : m.cell a = some c)
    (hb : ∀ b, H' b + c'.ptrs.count (some b) + (if b = a then c.rc else 0) = H b + c.ptrs.count (some b) + (if b = a then c'.rc else 0)) :
    RC (m.put a (some c')) H' := by
  have ha := lt_next h hc
  refine ⟨fun b hn => ?_, fun b => ?_⟩
  · have : b ≠ a := fun e => by subst e; simp only [put_next] at hn; omega
    rw [put_ne _ _ this]; exact h.fresh b hn
  · have h1 := refs_put m (some c') ha b
    have h2 := h.cnt b
    have h3 := hb b
    simp only [hc, hit] at h1
    by_cases e : b = a
    · subst e
      rw [rcOf_put_same]
      simp only [Mem.rcOf, hc] at h2
      simp only [if_true] at h3
      omega
    · rw [rcOf_put_ne _ _ e]
      simp only [if_neg e] at h3
      omega

/-- What a step does to the nodes that are there afterwards: coordinates and data stay, children only change in nodes of `K`,
the parent pointer only in nodes of `P`; the counts may change; nodes may be deleted, none are made. -/
structure Fr (m m' : Mem V) (K P : Nat → Prop) : Prop where
  next : m'.next = m.next
  cell : ∀ b c', m'.cell b = some c' → ∃ c, m.cell b = some c ∧ c'.x = c.x ∧ c'.y = c.y ∧ c'.d = c.d ∧
    (¬ K b → ∀ q, c'.kid q = c.kid q) ∧ (¬ P b → c'.par = c.par)

/-- Nothing. -/
def nowhere : Nat → Prop := fun _ => False

theorem Fr.refl (m : Mem V) (K P : Nat → Prop) : Fr m m K P := ⟨rfl, fun b c h => ⟨c, h, rfl, rfl, rfl, fun _ _ => rfl, fun _ => rfl⟩⟩

theorem Fr.mono {m m' : Mem V} {K K' P P' : Nat → Prop} (h : Fr m m' K P) (hK : ∀ b, K b → K' b) (hP : ∀ b, P b → P' b) : Fr m m' K' P' :=
  ⟨h.next, fun b c' hc => by
    obtain ⟨c, h1, h2, h3, h4, h5, h6⟩ := h.cell b c' hc
    exact ⟨c, h1, h2, h3, h4, fun hn => h5 (fun hk => hn (hK b hk)), fun hn => h6 (fun hk => hn (hP b hk))⟩⟩

theorem Fr.widen {m m' : Mem V} (h : Fr m m' nowhere nowhere) (K P : Nat → Prop) : Fr m m' K P := h.mono (fun _ => False.elim) (fun _ => False.elim)

theorem Fr.trans {m m' m'' : Mem V} {K P : Nat → Prop} (h : Fr m m' K P) (h' : Fr m' m'' K P) : Fr m m'' K P :=
  ⟨h'.next.trans h.next, fun b c'' hc => by
    obtain ⟨c', i1, i2, i3, i4, i5, i6⟩ := h'.cell b c'' hc
    obtain ⟨c, j1, j2, j3, j4, j5, j6⟩ := h.cell b c' i1
    exact ⟨c, j1, i2.trans j2, i3.trans j3, i4.trans j4, fun hn q => (i5 hn q).trans (j5 hn q), fun hn => (i6 hn).trans (j6 hn)⟩⟩

theorem count_ptrs_rc (c : Cell V) (n : Nat) : ({ c with rc := n } : Cell V).ptrs = c.ptrs := rfl

/-- Releasing pointers that are held never goes wrong. -/
theorem releaseL_spec : ∀ (f : Nat) (l : List (Option Nat)) (m : Mem V) (H : Nat → Nat),
    RC m (fun b => H b + l.count (some b)) → l.length + 5 * live m ≤ f →
    ∃ m', releaseL f l m = .ok m' ∧ RC m' H ∧ Fr m m' nowhere nowhere := by
  intro f
  induction f with
  | zero =>
    intro l m H h hf
    cases l with
    | nil => exact ⟨m, rfl, by simpa using h, .refl ..⟩
    | cons o l => simp at hf
  | succ f ih =>
    intro l m H h hf
    cases l with
    | nil => exact ⟨m, rfl, by simpa using h, .refl ..⟩
    | cons o l =>
      simp only [List.length_cons] at hf
      cases o with
      | none =>
        obtain ⟨m', h1, h2, h3⟩ := ih l m H ⟨h.fresh, fun a => by have := h.cnt a; simpa using this⟩ (by omega)
        exact ⟨m', by simpa only [releaseL] using h1, h2, h3⟩
      | some a =>
        obtain ⟨c, hc⟩ := h.held (a := a) (by simp only [List.count_cons_self]; omega)
        have ha := lt_next h hc
        have hcnt := h.cnt a
        simp only [Mem.rcOf, hc, List.count_cons_self] at hcnt
        simp only [releaseL, get_eq hc, obind_ok]
        by_cases hr : c.rc = 1
        · rw [if_pos hr]
          have hself := hit_le h hc a
          have h1 : RC (m.put a none) (fun b => H b + ([c.sw, c.se, c.nw, c.ne, c.par] ++ l).count (some b)) := by
            refine ⟨fun b hn => ?_, fun b => ?_⟩
            · by_cases e : b = a
              · subst e; exact put_same ..
              · rw [put_ne _ _ e]; exact h.fresh b hn
            · have e1 := refs_put m none ha b
              have e2 := h.cnt b
              simp only [hc, hit] at e1
              simp only [List.count_append]
              simp only [Cell.ptrs] at e1 hself
              by_cases e : b = a
              · subst e
                simp only [Mem.rcOf, put_same]
                omega
              · rw [rcOf_put_ne _ _ e]
                have : ¬ (some a : Option Nat) = some b := fun h => e (by cases h; rfl)
                rw [List.count_cons_of_ne this] at e2
                omega
          have hl := live_put m (none : Option (Cell V)) ha
          simp only [hc, Option.isSome_some, if_true, Option.isSome_none, Bool.false_eq_true, if_false] at hl
          obtain ⟨m', j1, j2, j3⟩ := ih _ _ _ h1 (by simp only [List.length_append, List.length_cons, List.length_nil]; omega)
          refine ⟨m', j1, j2, ⟨j3.next, fun b c' hb => ?_⟩⟩
          obtain ⟨c0, k1, k2⟩ := j3.cell b c' hb
          by_cases e : b = a
          · subst e; rw [put_same] at k1; cases k1
          · rw [put_ne _ _ e] at k1; exact ⟨c0, k1, k2⟩
        · rw [if_neg hr]
          have h1 : RC (m.put a (some { c with rc := c.rc - 1 })) (fun b => H b + l.count (some b)) := by
            refine h.put hc (fun b => ?_)
            simp only [count_ptrs_rc]
            by_cases e : b = a
            · subst e; simp only [List.count_cons_self, if_true]; omega
            · have : ¬ (some a : Option Nat) = some b := fun h => e (by cases h; rfl)
              simp only [if_neg e, List.count_cons_of_ne this]
          have hl := live_put m (some { c with rc := c.rc - 1 }) ha
          simp only [hc, Option.isSome_some, if_true] at hl
          obtain ⟨m', j1, j2, j3⟩ := ih _ _ _ h1 (by omega)
          refine ⟨m', j1, j2, ⟨j3.next, fun b c' hb => ?_⟩⟩
          obtain ⟨c0, k1, k2, k3, k4, k5, k6⟩ := j3.cell b c' hb
          by_cases e : b = a
          · subst e; rw [put_same] at k1; cases k1
            exact ⟨c, hc, k2, k3, k4, fun hn q => by rw [k5 hn q, kid_rc], k6⟩
          · rw [put_ne _ _ e] at k1; exact ⟨c0, k1, k2, k3, k4, k5, k6⟩

theorem release_ok {m : Mem V} {H : Nat → Nat} (o : Option Nat) (h : RC m (hold H o)) :
    ∃ m', release o m = .ok m' ∧ RC m' H ∧ Fr m m' nowhere nowhere := by
  refine releaseL_spec _ [o] m H ?_ ?_
  · have e : (fun b => H b + [o].count (some b)) = hold H o := by
      funext b; simp only [hold, leads, List.count_cons, List.count_nil]; by_cases h : o = some b <;> simp [h]
    rw [e]; exact h
  · have := live_le m
    simp only [List.length_cons, List.length_nil]; omega

theorem addRef_ok {m : Mem V} {H : Nat → Nat} (o : Option Nat) (h : RC m H) (ho : ∀ a, o = some a → ∃ c, m.cell a = some c) :
    ∃ m', addRef o m = .ok m' ∧ RC m' (hold H o) ∧ Fr m m' nowhere nowhere ∧ ∀ b c, m.cell b = some c → ∃ c', m'.cell b = some c' := by
  cases o with
  | none => exact ⟨m, rfl, by simpa using h, .refl .., fun b c hc => ⟨c, hc⟩⟩
  | some a =>
    obtain ⟨c, hc⟩ := ho a rfl
    refine ⟨_, addRef_eq hc, h.put hc (fun b => ?_), ⟨rfl, fun b c' hb => ?_⟩, fun b c1 hb => ?_⟩
    · simp only [count_ptrs_rc, hold, leads]
      by_cases e : b = a
      · subst e; simp; omega
      · have : ¬ (some a : Option Nat) = some b := fun h => e (by cases h; rfl)
        simp only [if_neg e, if_neg this]; omega
    · by_cases e : b = a
      · subst e; rw [put_same] at hb; cases hb
        exact ⟨c, hc, rfl, rfl, rfl, fun _ q => by rw [kid_rc], fun _ => rfl⟩
      · rw [put_ne _ _ e] at hb; exact ⟨c', hb, rfl, rfl, rfl, fun _ _ => rfl, fun _ => rfl⟩
    · by_cases e : b = a
      · subst e; exact ⟨_, put_same ..⟩
      · exact ⟨c1, by rw [put_ne _ _ e]; exact hb⟩

theorem count_cons_opt (o : Option Nat) (l : List (Option Nat)) (b : Nat) :
    (o :: l).count (some b) = l.count (some b) + leads o b := by
  by_cases h : o = some b
  · subst h; simp [leads]
  · rw [List.count_cons_of_ne h]; simp [leads, h]

theorem count_setKid (c : Cell V) (q : Quadrant) (p : Option Nat) (b : Nat) :
    (c.setKid q p).ptrs.count (some b) + leads (c.kid q) b = c.ptrs.count (some b) + leads p b := by
  cases q <;> simp only [Cell.setKid, Cell.ptrs, Cell.kid, count_cons_opt, List.count_nil] <;> omega

theorem count_setPar (c : Cell V) (p : Option Nat) (b : Nat) :
    ({ c with par := p } : Cell V).ptrs.count (some b) + leads c.par b = c.ptrs.count (some b) + leads p b := by
  simp only [Cell.ptrs, count_cons_opt, List.count_nil]; omega

theorem assignKid_ok {m : Mem V} {H : Nat → Nat} {a : Nat} {c : Cell V} (q : Quadrant) (p : Option Nat) (h : RC m H) (hc : m.cell a = some c)
    (hp : ∀ k, p = some k → ∃ c, m.cell k = some c) :
    ∃ m', assignKid a q p m = .ok m' ∧ RC m' H ∧ Fr m m' (· = a) nowhere ∧
      ∀ c', m'.cell a = some c' → ∀ r, c'.kid r = if r = q then p else c.kid r := by
  obtain ⟨m1, e1, r1, f1, l1⟩ := addRef_ok p h hp
  obtain ⟨c1, hc1⟩ := l1 a c hc
  obtain ⟨c0, hc0, x1, y1, d1, k0, p0⟩ := f1.cell a c1 hc1
  rw [hc] at hc0; cases hc0
  have k1 := k0 id; have p1 := p0 id
  clear k0 p0
  have r2 : RC (m1.put a (some (c1.setKid q p))) (hold H (c1.kid q)) := by
    refine r1.put hc1 (fun b => ?_)
    have := count_setKid c1 q p b
    simp only [hold, setKid_rc]
    omega
  obtain ⟨m2, e2, r3, f2⟩ := release_ok (c1.kid q) r2
  refine ⟨m2, ?_, r3, ⟨f2.next.trans f1.next, fun b c' hb => ?_⟩, fun c' hb r => ?_⟩
  · simp only [assignKid, e1, obind_ok, get_eq hc1, upd_eq _ hc1, e2]
  · obtain ⟨c2, i1, i2, i3, i4, i5, i6⟩ := f2.cell b c' hb
    have i5 := i5 id; have i6 := i6 id
    by_cases e : b = a
    · subst e
      rw [put_same] at i1; cases i1
      refine ⟨c, hc, ?_, ?_, ?_, fun hn => absurd rfl hn, fun _ => ?_⟩
      · rw [i2, setKid_x, x1]
      · rw [i3, setKid_y, y1]
      · rw [i4, setKid_d, d1]
      · rw [i6, setKid_par, p1]
    · rw [put_ne _ _ e] at i1
      obtain ⟨c3, j1, j2, j3, j4, j5, j6⟩ := f1.cell b c2 i1
      exact ⟨c3, j1, i2.trans j2, i3.trans j3, i4.trans j4, fun _ q => (i5 q).trans (j5 id q), fun _ => i6.trans (j6 id)⟩
  · obtain ⟨c2, i1, i2, i3, i4, i5, i6⟩ := f2.cell a c' hb
    rw [put_same] at i1; cases i1
    rw [i5 id r, kid_setKid]
    split
    · rfl
    · rw [k1 r]

theorem assignPar_ok {m : Mem V} {H : Nat → Nat} {a : Nat} {c : Cell V} (p : Option Nat) (h : RC m H) (hc : m.cell a = some c)
    (hp : ∀ k, p = some k → ∃ c, m.cell k = some c) :
    ∃ m', assignPar a p m = .ok m' ∧ RC m' H ∧ Fr m m' nowhere (· = a) ∧ ∀ c', m'.cell a = some c' → c'.par = p := by
  obtain ⟨m1, e1, r1, f1, l1⟩ := addRef_ok p h hp
  obtain ⟨c1, hc1⟩ := l1 a c hc
  obtain ⟨c0, hc0, x1, y1, d1, k0, p0⟩ := f1.cell a c1 hc1
  rw [hc] at hc0; cases hc0
  have k1 := k0 id; have p1 := p0 id
  clear k0 p0
  have r2 : RC (m1.put a (some { c1 with par := p })) (hold H c1.par) := by
    refine r1.put hc1 (fun b => ?_)
    have := count_setPar c1 p b
    simp only [hold]
    omega
  obtain ⟨m2, e2, r3, f2⟩ := release_ok c1.par r2
  refine ⟨m2, ?_, r3, ⟨f2.next.trans f1.next, fun b c' hb => ?_⟩, fun c' hb => ?_⟩
  · simp only [assignPar, e1, obind_ok, get_eq hc1, upd_eq _ hc1, e2]
  · obtain ⟨c2, i1, i2, i3, i4, i5, i6⟩ := f2.cell b c' hb
    have i5 := i5 id; have i6 := i6 id
    by_cases e : b = a
    · subst e
      rw [put_same] at i1; cases i1
      exact ⟨c, hc, i2.trans x1, i3.trans y1, i4.trans d1, fun _ q => (i5 q).trans ((kid_par c1 p q).trans (k1 q)), fun hn => absurd rfl hn⟩
    · rw [put_ne _ _ e] at i1
      obtain ⟨c3, j1, j2, j3, j4, j5, j6⟩ := f1.cell b c2 i1
      exact ⟨c3, j1, i2.trans j2, i3.trans j3, i4.trans j4, fun _ q => (i5 q).trans (j5 id q), fun _ => i6.trans (j6 id)⟩
  · obtain ⟨c2, i1, i2, i3, i4, i5, i6⟩ := f2.cell a c' hb
    rw [put_same] at i1; cases i1
    exact i6 id

end Mdds.Quad
