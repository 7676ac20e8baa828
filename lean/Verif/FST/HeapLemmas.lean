import Verif.FST.HeapModel
import Mathlib.Data.List.Nodup

/-!
# Reference counting keeps its books

`WF h`: the reference count of every live node is the number of places that point to it, no
place points to a deleted node, and no live node is without a reference.  Every primitive of
`HeapModel.lean` keeps this, and leaves the contents of all surviving nodes alone except for the
place assigned to.
-/
namespace Mdds.FST.Mem

variable {V : Type}

@[simp] theorem upd_same {α β : Type} [DecidableEq α] (f : α → β) (a : α) (b : β) : upd f a b a = b := by
  simp [upd]

theorem upd_ne {α β : Type} [DecidableEq α] (f : α → β) {a x : α} (b : β) (h : x ≠ a) : upd f a b x = f x := by
  simp [upd, h]

/-- The books, with releases of the addresses in `work` still to be done. -/
structure WFw (work : List Nat) (h : Heap V) : Prop where
  bound : ∀ a, (h.node a).isSome → a < h.fresh
  rc : ∀ a n, h.node a = some n →
    ∃ L : List Loc, L.Nodup ∧ (∀ l, l ∈ L ↔ h.read l = some a) ∧ n.rc = L.length + work.count a
  pos : ∀ a n, h.node a = some n → n.rc ≠ 0
  live : ∀ l a, h.read l = some a → (h.node a).isSome
  pend : ∀ a, a ∈ work → (h.node a).isSome

/-- The books are balanced. -/
abbrev WF (h : Heap V) : Prop := WFw [] h

/-- What a release may do to the rest of the memory: delete nodes, change counts. -/
structure Shrinks (h h' : Heap V) : Prop where
  fresh : h'.fresh = h.fresh
  root : h'.root = h.root
  node : ∀ a n', h'.node a = some n' → ∃ n, h.node a = some n ∧
    n'.key = n.key ∧ n'.val = n.val ∧ n'.prev = n.prev ∧ n'.next = n.next

theorem Shrinks.refl (h : Heap V) : Shrinks h h :=
  ⟨rfl, rfl, fun _ n' hn => ⟨n', hn, rfl, rfl, rfl, rfl⟩⟩

theorem Shrinks.trans {a b c : Heap V} (h1 : Shrinks a b) (h2 : Shrinks b c) : Shrinks a c := by
  refine ⟨h2.fresh.trans h1.fresh, h2.root.trans h1.root, fun x n hx => ?_⟩
  obtain ⟨n1, hb, e1, e2, e3, e4⟩ := h2.node x n hx
  obtain ⟨n2, ha, f1, f2, f3, f4⟩ := h1.node x n1 hb
  exact ⟨n2, ha, e1.trans f1, e2.trans f2, e3.trans f3, e4.trans f4⟩

/-- Number of live nodes. -/
def liveCount (h : Heap V) : Nat := (List.range h.fresh).countP fun a => (h.node a).isSome

theorem countP_lt {l : List Nat} (hn : l.Nodup) {p q : Nat → Bool} {a : Nat} (ha : a ∈ l) (hp : p a = true)
    (hq : q a = false) (hpq : ∀ x, x ≠ a → q x = p x) : l.countP q + 1 = l.countP p := by
  induction l with
  | nil => simp at ha
  | cons b t ih =>
    rw [List.nodup_cons] at hn
    by_cases hb : b = a
    · subst hb
      have : t.countP q = t.countP p := by
        apply List.countP_congr
        intro x hx
        rw [hpq x (fun e => hn.1 (e ▸ hx))]
      simp [List.countP_cons, hp, hq, this]
    · have := ih hn.2 (by simpa [Ne.symm hb] using ha)
      simp only [List.countP_cons, hpq b hb]
      omega

theorem liveCount_free {h : Heap V} {a : Nat} {n : Node V} (ha : h.node a = some n) (hb : a < h.fresh) :
    liveCount { h with node := upd h.node a none } + 1 = liveCount h := by
  apply countP_lt List.nodup_range (a := a) (by simpa using hb)
  · simp [ha]
  · simp
  · intro x hx
    simp [upd, hx]

theorem liveCount_le (h : Heap V) : liveCount h ≤ h.fresh := by
  have := List.countP_le_length (p := fun a => (h.node a).isSome) (l := List.range h.fresh)
  simpa [liveCount] using this

/-- Reading after a change of counts only. -/
theorem read_rc {h : Heap V} {a : Nat} {n : Node V} (ha : h.node a = some n) (k : Nat) (l : Loc) :
    ({ h with node := upd h.node a (some { n with rc := k }) } : Heap V).read l = h.read l := by
  cases l with
  | root r => rfl
  | prev b =>
    by_cases e : b = a
    · subst e; simp [Heap.read, ha]
    · simp [Heap.read, upd_ne _ _ e]
  | next b =>
    by_cases e : b = a
    · subst e; simp [Heap.read, ha]
    · simp [Heap.read, upd_ne _ _ e]

/-- Reading after a deletion. -/
theorem read_free {h : Heap V} {a : Nat} (l : Loc) :
    ({ h with node := upd h.node a none } : Heap V).read l =
      if l = .prev a ∨ l = .next a then none else h.read l := by
  cases l with
  | root r => simp [Heap.read]
  | prev b =>
    by_cases e : b = a
    · subst e; simp [Heap.read]
    · simp [Heap.read, upd_ne _ _ e, e]
  | next b =>
    by_cases e : b = a
    · subst e; simp [Heap.read]
    · simp [Heap.read, upd_ne _ _ e, e]

/-- Taking a place out of the list of places that point to `b`. -/
theorem places_erase {L : List Loc} {p q : Loc → Prop} (hn : L.Nodup) (hL : ∀ l, l ∈ L ↔ p l) (l0 : Loc)
    (hq : ∀ l, q l ↔ p l ∧ l ≠ l0) :
    ∃ L' : List Loc, L'.Nodup ∧ (∀ l, l ∈ L' ↔ q l) ∧ (p l0 → L.length = L'.length + 1) ∧ (¬ p l0 → L.length = L'.length) := by
  refine ⟨L.erase l0, hn.erase _, fun l => ?_, fun h => ?_, fun h => ?_⟩
  · rw [hn.mem_erase_iff, hL, hq]; exact And.comm
  · have hm : l0 ∈ L := (hL l0).2 h
    have := List.length_erase_of_mem hm
    have : 0 < L.length := List.length_pos_of_mem hm
    omega
  · rw [List.erase_of_not_mem (fun hm => h ((hL l0).1 hm))]

set_option maxHeartbeats 1000000 in
theorem drain_ok : ∀ (fuel : Nat) (work : List Nat) (h : Heap V), WFw work h →
    work.length + 2 * liveCount h ≤ fuel →
    ∃ h', drain fuel work h = .ok h' ∧ WF h' ∧ Shrinks h h' := by
  intro fuel
  induction fuel with
  | zero =>
    intro work h w hf
    have : work = [] := List.length_eq_zero_iff.1 (by omega)
    subst this
    exact ⟨h, rfl, w, .refl h⟩
  | succ fuel ih =>
    intro work h w hf
    cases work with
    | nil => exact ⟨h, rfl, w, .refl h⟩
    | cons a work =>
      obtain ⟨n, hn⟩ := Option.isSome_iff_exists.1 (w.pend a (by simp))
      obtain ⟨La, hLn, hLm, hrc⟩ := w.rc a n hn
      rw [List.count_cons_self] at hrc
      by_cases h1 : n.rc = 1
      · -- the node is deleted
        have hL0 : La = [] := List.length_eq_zero_iff.1 (by omega)
        have hw0 : a ∉ work := fun hm => by
          have := List.count_pos_iff.2 hm
          omega
        subst hL0
        have hnone : ∀ l, h.read l ≠ some a := fun l hl => by simpa using (hLm l).2 hl
        have hnext : n.next ≠ some a := by
          have := hnone (.next a); simpa [Heap.read, hn] using this
        have hprev : n.prev ≠ some a := by
          have := hnone (.prev a); simpa [Heap.read, hn] using this
        have hb := w.bound a (by simp [hn])
        have hlc := liveCount_free hn hb
        let h1' : Heap V := { h with node := upd h.node a none }
        have w' : WFw (n.next.toList ++ (n.prev.toList ++ work)) h1' := by
          refine ⟨fun b hb => ?_, fun b m hm => ?_, fun b m hm => ?_, fun l b hl => ?_, fun b hm => ?_⟩
          · by_cases e : b = a
            · subst e; simp [h1'] at hb
            · exact w.bound b (by simpa [h1', upd_ne _ _ e] using hb)
          · have e : b ≠ a := fun e => by subst e; simp [h1'] at hm
            have hm0 : h.node b = some m := by simpa [h1', upd_ne _ _ e] using hm
            obtain ⟨L, hL1, hL2, hL3⟩ := w.rc b m hm0
            obtain ⟨L1, n1, m1, c1, d1⟩ := places_erase (q := fun l => h.read l = some b ∧ l ≠ .prev a)
              hL1 hL2 (.prev a) (fun l => Iff.rfl)
            obtain ⟨L2, n2, m2, c2, d2⟩ := places_erase (q := fun l => h1'.read l = some b)
              n1 m1 (.next a) (fun l => by
                show (Heap.read _ l = some b) ↔ _
                rw [read_free]
                by_cases hl : l = .prev a
                · subst hl; simp
                · by_cases hl' : l = .next a
                  · subst hl'; simp
                  · simp [hl, hl'])
            refine ⟨L2, n2, m2, ?_⟩
            rw [hL3, List.count_cons_of_ne (Ne.symm e)]
            have ep : h.read (.prev a) = n.prev := by simp [Heap.read, hn]
            have en : h.read (.next a) = n.next := by simp [Heap.read, hn]
            have cp : L.length = L1.length + n.prev.toList.count b := by
              by_cases hp : n.prev = some b
              · rw [c1 (by rw [ep, hp])]; simp [hp]
              · rw [d1 (by rw [ep]; exact hp)]
                cases hpp : n.prev with
                | none => simp
                | some x =>
                  have : x ≠ b := fun e => hp (by rw [hpp, e])
                  simp [List.count_singleton, this]
            have cn : L1.length = L2.length + n.next.toList.count b := by
              by_cases hp : n.next = some b
              · rw [c2 (by rw [en, hp]; simp)]; simp [hp]
              · rw [d2 (by rw [en]; exact fun h => hp h.1)]
                cases hpp : n.next with
                | none => simp
                | some x =>
                  have : x ≠ b := fun e => hp (by rw [hpp, e])
                  simp [List.count_singleton, this]
            simp only [List.count_append]
            omega
          · have e : b ≠ a := fun e => by subst e; simp [h1'] at hm
            exact w.pos b m (by simpa [h1', upd_ne _ _ e] using hm)
          · have hl0 : h.read l = some b := by
              have hl1 : (if l = .prev a ∨ l = .next a then none else h.read l) = some b := by
                rw [← read_free]; exact hl
              split at hl1
              · simp at hl1
              · exact hl1
            have e : b ≠ a := fun e => by subst e; exact hnone l hl0
            have := w.live l b hl0
            simpa [h1', upd_ne _ _ e] using this
          · have hb0 : (h.node b).isSome ∧ b ≠ a := by
              rcases List.mem_append.1 hm with hm | hm
              · have hx : n.next = some b := by simpa using hm
                exact ⟨w.live (.next a) b (by simp [Heap.read, hn, hx]), fun e => hnext (by rw [hx, e])⟩
              · rcases List.mem_append.1 hm with hm | hm
                · have hx : n.prev = some b := by simpa using hm
                  exact ⟨w.live (.prev a) b (by simp [Heap.read, hn, hx]), fun e => hprev (by rw [hx, e])⟩
                · exact ⟨w.pend b (by simp [hm]), fun e => hw0 (e ▸ hm)⟩
            simpa [h1', upd_ne _ _ hb0.2] using hb0.1
        obtain ⟨h', he, hw, hs⟩ := ih _ h1' w' (by
          have e1 : n.next.toList.length ≤ 1 := by cases n.next <;> simp
          have e2 : n.prev.toList.length ≤ 1 := by cases n.prev <;> simp
          simp only [List.length_append, List.length_cons] at hf ⊢
          show _ + 2 * liveCount { h with node := upd h.node a none } ≤ fuel
          omega)
        refine ⟨h', by simp only [drain, hn, h1, if_true]; exact he, hw, Shrinks.trans (b := h1') ⟨rfl, rfl, ?_⟩ hs⟩
        intro b m hm
        have e : b ≠ a := fun e => by subst e; simp [h1'] at hm
        exact ⟨m, by simpa [h1', upd_ne _ _ e] using hm, rfl, rfl, rfl, rfl⟩
      · -- only the count goes down
        let h1' : Heap V := { h with node := upd h.node a (some { n with rc := n.rc - 1 }) }
        have hiso : ∀ b, (h1'.node b).isSome = (h.node b).isSome := by
          intro b
          by_cases e : b = a
          · subst e; simp [h1', hn]
          · simp [h1', upd_ne _ _ e]
        have hpos := w.pos a n hn
        have w' : WFw work h1' := by
          refine ⟨fun b hb => w.bound b (by rw [← hiso]; exact hb), fun b m hm => ?_, fun b m hm => ?_,
            fun l b hl => ?_, fun b hm => ?_⟩
          · by_cases e : b = a
            · subst e
              have hm' : m = { n with rc := n.rc - 1 } := by simpa [h1'] using hm.symm
              refine ⟨La, hLn, fun l => by rw [hLm]; rw [show h1'.read l = h.read l from read_rc hn _ l], ?_⟩
              rw [hm']; show n.rc - 1 = _
              omega
            · have hm0 : h.node b = some m := by simpa [h1', upd_ne _ _ e] using hm
              obtain ⟨L, hL1, hL2, hL3⟩ := w.rc b m hm0
              refine ⟨L, hL1, fun l => by rw [hL2]; rw [show h1'.read l = h.read l from read_rc hn _ l], ?_⟩
              rw [hL3, List.count_cons_of_ne (Ne.symm e)]
          · by_cases e : b = a
            · subst e
              have hm' : m = { n with rc := n.rc - 1 } := by simpa [h1'] using hm.symm
              rw [hm']; show n.rc - 1 ≠ 0
              omega
            · exact w.pos b m (by simpa [h1', upd_ne _ _ e] using hm)
          · rw [hiso]
            exact w.live l b (by rw [← hl]; exact (read_rc hn _ l).symm)
          · rw [hiso]; exact w.pend b (by simp [hm])
        have hlc : liveCount h1' = liveCount h := by
          simp only [liveCount]
          apply List.countP_congr
          intro b _
          rw [hiso]
        obtain ⟨h', he, hw, hs⟩ := ih _ h1' w' (by simp only [List.length_cons] at hf; omega)
        refine ⟨h', by simp only [drain, hn, h1, if_false]; exact he, hw, Shrinks.trans (b := h1') ⟨rfl, rfl, ?_⟩ hs⟩
        intro b m hm
        by_cases e : b = a
        · subst e
          have hm' : m = { n with rc := n.rc - 1 } := by simpa [h1'] using hm.symm
          exact ⟨n, hn, by rw [hm'], by rw [hm'], by rw [hm'], by rw [hm']⟩
        · exact ⟨m, by simpa [h1', upd_ne _ _ e] using hm, rfl, rfl, rfl, rfl⟩

theorem release_ok {v : Option Nat} {h : Heap V} (w : WFw v.toList h) :
    ∃ h', release v h = .ok h' ∧ WF h' ∧ Shrinks h h' := by
  apply drain_ok _ _ _ w
  have := liveCount_le h
  have : v.toList.length ≤ 1 := by cases v <;> simp
  omega

/-! ## Assignments -/

theorem hasLoc_read {h : Heap V} {l : Loc} {a : Nat} (hr : h.read l = some a) : h.hasLoc l = true := by
  cases l with
  | root r => rfl
  | prev b => cases hb : h.node b <;> simp_all [Heap.read, Heap.hasLoc]
  | next b => cases hb : h.node b <;> simp_all [Heap.read, Heap.hasLoc]

theorem read_write {h : Heap V} {l : Loc} (hl : h.hasLoc l = true) (v : Option Nat) (l' : Loc) :
    (h.write l v).read l' = if l' = l then v else h.read l' := by
  cases l with
  | root r =>
    cases l' with
    | root r' => by_cases e : r' = r <;> simp [Heap.read, Heap.write, upd, e]
    | prev b => simp [Heap.read, Heap.write]
    | next b => simp [Heap.read, Heap.write]
  | prev a =>
    obtain ⟨n, hn⟩ := Option.isSome_iff_exists.1 (show (h.node a).isSome from hl)
    cases l' with
    | root r' => simp [Heap.read, Heap.write]
    | prev b => by_cases e : b = a <;> simp [Heap.read, Heap.write, upd, e, hn]
    | next b => by_cases e : b = a <;> simp [Heap.read, Heap.write, upd, e, hn]
  | next a =>
    obtain ⟨n, hn⟩ := Option.isSome_iff_exists.1 (show (h.node a).isSome from hl)
    cases l' with
    | root r' => simp [Heap.read, Heap.write]
    | prev b => by_cases e : b = a <;> simp [Heap.read, Heap.write, upd, e, hn]
    | next b => by_cases e : b = a <;> simp [Heap.read, Heap.write, upd, e, hn]

/-- Nodes after a plain write. -/
theorem node_write (h : Heap V) (l : Loc) (v : Option Nat) (b : Nat) :
    (h.write l v).node b = (h.node b).map fun n =>
      { n with prev := if l = .prev b then v else n.prev, next := if l = .next b then v else n.next } := by
  cases l with
  | root r => simp [Heap.write]
  | prev a =>
    by_cases e : b = a
    · subst e; simp [Heap.write]
    · simp [Heap.write, upd_ne _ _ e, Ne.symm e]
  | next a =>
    by_cases e : b = a
    · subst e; simp [Heap.write]
    · simp [Heap.write, upd_ne _ _ e, Ne.symm e]

@[simp] theorem fresh_write (h : Heap V) (l : Loc) (v : Option Nat) : (h.write l v).fresh = h.fresh := by
  cases l <;> rfl

theorem root_write (h : Heap V) (l : Loc) (v : Option Nat) (r : Root) :
    (h.write l v).root r = if l = .root r then v else h.root r := by
  cases l with
  | root r' => by_cases e : r = r' <;> simp [Heap.write, upd, e, eq_comm]
  | prev a => simp [Heap.write]
  | next a => simp [Heap.write]

/-- Replacing the pointer in a place moves one reference; the balance after that, with the old
pointee still to be released. -/
theorem wf_write {h : Heap V} {l : Loc} (hl : h.hasLoc l = true) {v : Option Nat}
    (work : List Nat) (w : WFw work h)
    -- `v` has been counted already: it is in `work` once more than in reality
    {work' : List Nat} (hwork : ∀ a, work.count a + (h.read l).toList.count a = work'.count a + v.toList.count a)
    (hv : ∀ a, v = some a → (h.node a).isSome) : WFw work' (h.write l v) := by
  have hiso : ∀ b, ((h.write l v).node b).isSome = (h.node b).isSome := by
    intro b; rw [node_write]; simp
  have hrd := read_write hl v
  refine ⟨fun b hb => ?_, fun b m hm => ?_, fun b m hm => ?_, fun l' b hl' => ?_, fun b hm => ?_⟩
  · rw [fresh_write]; exact w.bound b (by rw [← hiso]; exact hb)
  · rw [node_write] at hm
    obtain ⟨n, hn, rfl⟩ := Option.map_eq_some_iff.1 hm
    obtain ⟨L, h1, h2, h3⟩ := w.rc b n hn
    have hc := hwork b
    -- the places that point to `b`, without `l`
    obtain ⟨L1, n1, m1, c1, d1⟩ := places_erase (q := fun x => h.read x = some b ∧ x ≠ l) h1 h2 l
      (fun _ => Iff.rfl)
    have e1 : L.length = L1.length + (h.read l).toList.count b := by
      by_cases hp : h.read l = some b
      · rw [c1 hp, hp]; simp
      · rw [d1 hp]
        cases hpp : h.read l with
        | none => simp
        | some x =>
          have : x ≠ b := fun e => hp (by rw [hpp, e])
          simp [List.count_singleton, this]
    by_cases hvb : v = some b
    · refine ⟨l :: L1, List.nodup_cons.2 ⟨fun hm => ((m1 l).1 hm).2 rfl, n1⟩, fun x => ?_, ?_⟩
      · rw [hrd]
        by_cases hx : x = l
        · subst hx; simp [hvb]
        · simp [hx, m1]
      · show n.rc = _
        subst hvb
        simp only [Option.toList_some, List.count_singleton, beq_self_eq_true, if_true, List.length_cons] at hc ⊢
        omega
    · refine ⟨L1, n1, fun x => ?_, ?_⟩
      · rw [hrd, m1]
        by_cases hx : x = l
        · subst hx; simp [hvb]
        · simp [hx]
      · show n.rc = _
        have : v.toList.count b = 0 := by
          cases hvv : v with
          | none => simp
          | some x =>
            have : x ≠ b := fun e => hvb (by rw [hvv, e])
            simp [List.count_singleton, this]
        omega
  · rw [node_write] at hm
    obtain ⟨n, hn, rfl⟩ := Option.map_eq_some_iff.1 hm
    exact w.pos b n hn
  · rw [hiso]
    rw [hrd] at hl'
    split at hl'
    · exact hv b hl'
    · exact w.live l' b hl'
  · rw [hiso]
    have hc := hwork b
    have : 0 < work'.count b := List.count_pos_iff.2 hm
    by_cases h0 : b ∈ work
    · exact w.pend b h0
    · have hz : work.count b = 0 := List.count_eq_zero.2 h0
      have hp : 0 < (h.read l).toList.count b := by omega
      have : b ∈ (h.read l).toList := List.count_pos_iff.1 hp
      exact w.live l b (by simpa using this)

theorem wf_addRef {h : Heap V} {work : List Nat} (w : WFw work h) {v : Option Nat}
    (hv : ∀ a, v = some a → (h.node a).isSome) :
    ∃ h', addRef v h = .ok h' ∧ WFw (v.toList ++ work) h' ∧ Shrinks h h' ∧ (∀ l, h'.read l = h.read l) ∧
      (∀ b, (h'.node b).isSome = (h.node b).isSome) := by
  cases v with
  | none => exact ⟨h, rfl, by simpa using w, .refl h, fun _ => rfl, fun _ => rfl⟩
  | some a =>
    obtain ⟨n, hn⟩ := Option.isSome_iff_exists.1 (hv a rfl)
    let h1 : Heap V := { h with node := upd h.node a (some { n with rc := n.rc + 1 }) }
    have hiso : ∀ b, (h1.node b).isSome = (h.node b).isSome := by
      intro b
      by_cases e : b = a
      · subst e; simp [h1, hn]
      · simp [h1, upd_ne _ _ e]
    refine ⟨h1, by simp [addRef, hn, h1], ⟨fun b hb => w.bound b (by rw [← hiso]; exact hb), fun b m hm => ?_,
      fun b m hm => ?_, fun l b hl => ?_, fun b hm => ?_⟩, ⟨rfl, rfl, fun b m hm => ?_⟩, fun l => read_rc hn _ l,
      hiso⟩
    · by_cases e : b = a
      · subst e
        have hm' : m = { n with rc := n.rc + 1 } := by simpa [h1] using hm.symm
        obtain ⟨L, h1', h2, h3⟩ := w.rc b n hn
        refine ⟨L, h1', fun l => by rw [h2]; rw [show h1.read l = h.read l from read_rc hn _ l], ?_⟩
        rw [hm']; show n.rc + 1 = _
        simp [List.count_cons]
        omega
      · have hm0 : h.node b = some m := by simpa [h1, upd_ne _ _ e] using hm
        obtain ⟨L, hL1, hL2, hL3⟩ := w.rc b m hm0
        refine ⟨L, hL1, fun l => by rw [hL2]; rw [show h1.read l = h.read l from read_rc hn _ l], ?_⟩
        rw [hL3]; simp [List.count_cons, Ne.symm e]
    · by_cases e : b = a
      · subst e
        have hm' : m = { n with rc := n.rc + 1 } := by simpa [h1] using hm.symm
        rw [hm']; exact Nat.succ_ne_zero _
      · exact w.pos b m (by simpa [h1, upd_ne _ _ e] using hm)
    · rw [hiso]
      exact w.live l b (by rw [← hl]; exact (read_rc hn _ l).symm)
    · rw [hiso]
      rcases List.mem_append.1 hm with hm | hm
      · have : b = a := by simpa using hm
        subst this; simp [hn]
      · exact w.pend b hm
    · by_cases e : b = a
      · subst e
        have hm' : m = { n with rc := n.rc + 1 } := by simpa [h1] using hm.symm
        exact ⟨n, hn, by rw [hm'], by rw [hm'], by rw [hm'], by rw [hm']⟩
      · exact ⟨m, by simpa [h1, upd_ne _ _ e] using hm, rfl, rfl, rfl, rfl⟩

/-! ## The picture of the memory

A `Pic` says what the memory looks like: for every address the links, key and value its node has
if it is live, the pointers outside nodes, a set of addresses that contains all live ones, and the
next free address. -/
structure Pic (V : Type) where
  N : Nat → Option Nat
  P : Nat → Option Nat
  K : Nat → Int
  W : Nat → V
  R : Root → Option Nat
  U : Nat → Prop
  fr : Nat

/-- The memory is as pictured, and the books are balanced. -/
structure Sat (g : Pic V) (h : Heap V) : Prop where
  wf : WF h
  node : ∀ a n, h.node a = some n → n.next = g.N a ∧ n.prev = g.P a ∧ n.key = g.K a ∧ n.val = g.W a ∧ g.U a
  root : ∀ r, h.root r = g.R r
  fr : h.fresh = g.fr

/-- Live in `h`. -/
def Live (h : Heap V) (a : Nat) : Prop := (h.node a).isSome = true

theorem Sat.live_root {g : Pic V} {h : Heap V} (s : Sat g h) {r : Root} {a : Nat} (e : g.R r = some a) : Live h a :=
  s.wf.live (.root r) a (by rw [← e]; exact s.root r)

theorem Sat.live_next {g : Pic V} {h : Heap V} (s : Sat g h) {a b : Nat} (ha : Live h a) (e : g.N a = some b) :
    Live h b := by
  obtain ⟨n, hn⟩ := Option.isSome_iff_exists.1 ha
  exact s.wf.live (.next a) b (by simp [Heap.read, hn, (s.node a n hn).1, e])

theorem Sat.live_prev {g : Pic V} {h : Heap V} (s : Sat g h) {a b : Nat} (ha : Live h a) (e : g.P a = some b) :
    Live h b := by
  obtain ⟨n, hn⟩ := Option.isSome_iff_exists.1 ha
  exact s.wf.live (.prev a) b (by simp [Heap.read, hn, (s.node a n hn).2.1, e])

theorem Sat.lt_fr {g : Pic V} {h : Heap V} (s : Sat g h) {a : Nat} (ha : Live h a) : a < g.fr := by
  rw [← s.fr]; exact s.wf.bound a ha

theorem Sat.inU {g : Pic V} {h : Heap V} (s : Sat g h) {a : Nat} (ha : Live h a) : g.U a := by
  obtain ⟨n, hn⟩ := Option.isSome_iff_exists.1 ha
  exact (s.node a n hn).2.2.2.2

/-- Every live node is held by something. -/
theorem Sat.held {g : Pic V} {h : Heap V} (s : Sat g h) {a : Nat} (ha : Live h a) :
    (∃ r, g.R r = some a) ∨ (∃ b, Live h b ∧ g.N b = some a) ∨ (∃ b, Live h b ∧ g.P b = some a) := by
  obtain ⟨n, hn⟩ := Option.isSome_iff_exists.1 ha
  obtain ⟨L, _, h2, h3⟩ := s.wf.rc a n hn
  have hp := s.wf.pos a n hn
  cases L with
  | nil => simp at h3; exact absurd h3 hp
  | cons l t =>
    have hl := (h2 l).1 (by simp)
    cases l with
    | root r => exact .inl ⟨r, by rw [← s.root]; exact hl⟩
    | prev b =>
      refine .inr (.inr ?_)
      cases hb : h.node b with
      | none => simp [Heap.read, hb] at hl
      | some m =>
        refine ⟨b, by simp [Live, hb], ?_⟩
        rw [← (s.node b m hb).2.1]; simpa [Heap.read, hb] using hl
    | next b =>
      refine .inr (.inl ?_)
      cases hb : h.node b with
      | none => simp [Heap.read, hb] at hl
      | some m =>
        refine ⟨b, by simp [Live, hb], ?_⟩
        rw [← (s.node b m hb).1]; simpa [Heap.read, hb] using hl

/-- The picture after an assignment to a place. -/
def Pic.set (g : Pic V) (l : Loc) (v : Option Nat) : Pic V :=
  match l with
  | .root r => { g with R := upd g.R r v }
  | .prev a => { g with P := upd g.P a v }
  | .next a => { g with N := upd g.N a v }

theorem Sat.write {g : Pic V} {h h2 : Heap V} (hn : ∀ a n, h.node a = some n → n.next = g.N a ∧ n.prev = g.P a ∧
      n.key = g.K a ∧ n.val = g.W a ∧ g.U a) (hr : ∀ r, h.root r = g.R r) (hf : h.fresh = g.fr) (l : Loc)
    (v : Option Nat) (w : WF h2) (s : Shrinks (h.write l v) h2) : Sat (g.set l v) h2 := by
  refine ⟨w, fun a n ha => ?_, fun r => ?_, ?_⟩
  · obtain ⟨m, hm, e1, e2, e3, e4⟩ := s.node a n ha
    rw [node_write] at hm
    obtain ⟨k, hk, rfl⟩ := Option.map_eq_some_iff.1 hm
    obtain ⟨f1, f2, f3, f4, f5⟩ := hn a k hk
    dsimp only at e1 e2 e3 e4
    rw [e1, e2, e3, e4]
    cases l with
    | root r => simp [Pic.set, f1, f2, f3, f4, f5]
    | prev b => 
      by_cases e : a = b
      · subst e; simp [Pic.set, f1, f2, f3, f4, f5]
      · simp [Pic.set, f1, f2, f3, f4, f5, upd_ne _ _ e, Ne.symm e]
    | next b => 
      by_cases e : a = b
      · subst e; simp [Pic.set, f1, f2, f3, f4, f5]
      · simp [Pic.set, f1, f2, f3, f4, f5, upd_ne _ _ e, Ne.symm e]
  · rw [s.root, root_write]
    cases l with
    | root r' => by_cases e : r = r' <;> simp [Pic.set, upd, e, eq_comm, hr]
    | prev b => simp [Pic.set, hr]
    | next b => simp [Pic.set, hr]
  · rw [s.fresh, fresh_write, hf]; cases l <;> rfl

/-- `p` run in `h` gives a result satisfying `Q`. -/
def wp {α : Type} (p : Prog V α) (Q : α → Heap V → Prop) (h : Heap V) : Prop :=
  ∃ a h', p h = .ok (a, h') ∧ Q a h'

theorem wp_ret {α : Type} {a : α} {Q : α → Heap V → Prop} {h : Heap V} (q : Q a h) : wp (Prog.ret a) Q h :=
  ⟨a, h, rfl, q⟩

theorem wp_pure {α : Type} {a : α} {Q : α → Heap V → Prop} {h : Heap V} (q : Q a h) :
    wp (pure a : Prog V α) Q h :=
  ⟨a, h, rfl, q⟩

theorem wp_bind {α β : Type} {p : Prog V α} {k : α → Prog V β} {Q : β → Heap V → Prop} {h : Heap V}
    (q : wp p (fun a h' => wp (k a) Q h') h) : wp (p >>= k) Q h := by
  obtain ⟨a, h', e, b, h'', e', q⟩ := q
  refine ⟨b, h'', ?_, q⟩
  show Prog.seq p k h = _
  simp only [Prog.seq, e, e']

theorem wp_mono {α : Type} {p : Prog V α} {Q Q' : α → Heap V → Prop} {h : Heap V} (w : wp p Q h)
    (i : ∀ a h', Q a h' → Q' a h') : wp p Q' h := by
  obtain ⟨a, h', e, q⟩ := w
  exact ⟨a, h', e, i a h' q⟩

theorem wp_get {g : Pic V} {h : Heap V} (s : Sat g h) {r : Root} {Q : Option Nat → Heap V → Prop}
    (q : Q (g.R r) h) : wp (get r) Q h :=
  ⟨_, h, rfl, by rw [s.root]; exact q⟩

theorem wp_nonnull {a : Nat} {p : Option Nat} {h : Heap V} {Q : Nat → Heap V → Prop} (e : p = some a) (q : Q a h) :
    wp (nonnull p) Q h := by
  subst e; exact wp_ret q

theorem wp_loopBound {g : Pic V} {h : Heap V} (s : Sat g h) {Q : Nat → Heap V → Prop} (q : Q (g.fr + 1) h) :
    wp loopBound Q h :=
  ⟨_, h, rfl, by rw [s.fr]; exact q⟩

theorem wp_deref {h : Heap V} {a : Nat} (ha : Live h a) {Q : Node V → Heap V → Prop}
    (q : ∀ n, h.node a = some n → Q n h) : wp (deref a) Q h := by
  obtain ⟨n, hn⟩ := Option.isSome_iff_exists.1 ha
  exact ⟨n, h, by simp [deref, hn], q n hn⟩

theorem wp_getKey {g : Pic V} {h : Heap V} (s : Sat g h) {a : Nat} (ha : Live h a) {Q : Int → Heap V → Prop}
    (q : Q (g.K a) h) : wp (getKey a) Q h :=
  wp_bind (wp_deref ha fun n hn => wp_pure (by rw [(s.node a n hn).2.2.1]; exact q))

theorem wp_getVal {g : Pic V} {h : Heap V} (s : Sat g h) {a : Nat} (ha : Live h a) {Q : V → Heap V → Prop}
    (q : Q (g.W a) h) : wp (getVal a) Q h :=
  wp_bind (wp_deref ha fun n hn => wp_pure (by rw [(s.node a n hn).2.2.2.1]; exact q))

theorem wp_getNext {g : Pic V} {h : Heap V} (s : Sat g h) {a : Nat} (ha : Live h a) {Q : Option Nat → Heap V → Prop}
    (q : Q (g.N a) h) : wp (getNext a) Q h :=
  wp_bind (wp_deref ha fun n hn => wp_pure (by rw [(s.node a n hn).1]; exact q))

theorem wp_getPrev {g : Pic V} {h : Heap V} (s : Sat g h) {a : Nat} (ha : Live h a) {Q : Option Nat → Heap V → Prop}
    (q : Q (g.P a) h) : wp (getPrev a) Q h :=
  wp_bind (wp_deref ha fun n hn => wp_pure (by rw [(s.node a n hn).2.1]; exact q))

theorem wp_assign {g : Pic V} {h : Heap V} (s : Sat g h) {l : Loc} (hl : h.hasLoc l = true) {v : Option Nat}
    (hv : ∀ a, v = some a → Live h a) {Q : Unit → Heap V → Prop} (q : ∀ h', Sat (g.set l v) h' → Q () h') :
    wp (assign l v) Q h := by
  obtain ⟨h1, e1, w1, s1, r1, i1⟩ := wf_addRef s.wf hv
  have hl1 : h1.hasLoc l = true := by
    cases l with
    | root r => rfl
    | prev a => rw [← hl]; exact i1 a
    | next a => rw [← hl]; exact i1 a
  have w2 : WFw (h1.read l).toList (h1.write l v) :=
    wf_write hl1 _ w1 (fun a => by simp only [List.append_nil]; omega) (fun a ha => by rw [i1]; exact hv a ha)
  obtain ⟨h2, e2, w3, s2⟩ := release_ok w2
  refine ⟨(), h2, by simp [assign, hl, e1, e2], q h2 ?_⟩
  refine Sat.write (h := h1) ?_ ?_ ?_ l v w3 s2
  · intro a n ha
    obtain ⟨m, hm, e1, e2, e3, e4⟩ := s1.node a n ha
    rw [e1, e2, e3, e4]; exact s.node a m hm
  · intro r; rw [s1.root]; exact s.root r
  · rw [s1.fresh]; exact s.fr

theorem wp_moveTo {g : Pic V} {h : Heap V} (s : Sat g h) {l : Loc} (hl : h.hasLoc l = true) {x : Root}
    (hx : l ≠ .root x) {Q : Unit → Heap V → Prop}
    (q : ∀ h', Sat ((g.set (.root x) none).set l (g.R x)) h' → Q () h') : wp (moveTo l x) Q h := by
  have hl1 : (h.write (.root x) none).hasLoc l = true := by
    cases l with
    | root r => rfl
    | prev a => exact hl
    | next a => exact hl
  have hv : ∀ a, h.root x = some a → Live h a := fun a ha => s.wf.live (.root x) a ha
  have w1 : WFw (h.root x).toList (h.write (.root x) none) :=
    wf_write (l := .root x) rfl [] s.wf (fun a => by simp [Heap.read]) (fun a ha => by simp at ha)
  have w2 : WFw ((h.write (.root x) none).read l).toList ((h.write (.root x) none).write l (h.root x)) :=
    wf_write hl1 _ w1 (fun a => by omega) (fun a ha => hv a ha)
  obtain ⟨h2, e2, w3, s2⟩ := release_ok w2
  refine ⟨(), h2, by simp [moveTo, hl, e2], q h2 ?_⟩
  rw [← s.root]
  refine Sat.write (h := h.write (.root x) none) ?_ ?_ ?_ l _ w3 s2
  · intro a n ha; exact s.node a n ha
  · intro r; rw [root_write]; 
    by_cases e : r = x
    · subst e; simp [Pic.set]
    · simp [Pic.set, upd_ne _ _ e, Ne.symm e, s.root]
  · exact s.fr

/-- The picture after creating a node. -/
def Pic.new (g : Pic V) (x : Root) (k : Int) (v : V) : Pic V :=
  { N := upd g.N g.fr none, P := upd g.P g.fr none, K := upd g.K g.fr k, W := upd g.W g.fr v,
    R := upd g.R x (some g.fr), U := fun a => g.U a ∨ a = g.fr, fr := g.fr + 1 }

theorem wp_alloc {g : Pic V} {h : Heap V} (s : Sat g h) {x : Root} {k : Int} {v : V} {Q : Nat → Heap V → Prop}
    (q : ∀ h', Sat (g.new x k v) h' → Q g.fr h') : wp (alloc x k v) Q h := by
  have hfr := s.fr
  have hdead : h.node h.fresh = none := by
    cases e : h.node h.fresh with
    | none => rfl
    | some n => exact absurd (s.wf.bound h.fresh (by simp [e])) (by omega)
  have hnoref : ∀ l, h.read l ≠ some h.fresh := fun l hl => by
    have := s.wf.live l _ hl
    simp [hdead] at this
  -- first the node on its own, with a reference still to be given away
  let n0 : Node V := { key := k, val := v, prev := none, next := none, rc := 1 }
  let h0 : Heap V := { h with node := upd h.node h.fresh (some n0), fresh := h.fresh + 1 }
  have hrd : ∀ l, h0.read l = h.read l := by
    intro l
    cases l with
    | root r => rfl
    | prev b => by_cases e : b = h.fresh <;> simp [h0, Heap.read, upd, e, hdead, n0]
    | next b => by_cases e : b = h.fresh <;> simp [h0, Heap.read, upd, e, hdead, n0]
  have w0 : WFw [h.fresh] h0 := by
    refine ⟨fun b hb => ?_, fun b m hm => ?_, fun b m hm => ?_, fun l b hl => ?_, fun b hm => ?_⟩
    · show b < h.fresh + 1
      by_cases e : b = h.fresh
      · omega
      · have := s.wf.bound b (by simpa [h0, upd_ne _ _ e] using hb)
        omega
    · by_cases e : b = h.fresh
      · subst e
        have : m = n0 := by simpa [h0] using hm.symm
        subst this
        exact ⟨[], List.nodup_nil, fun l => by simp [hrd, hnoref], by simp [n0]⟩
      · have hm0 : h.node b = some m := by simpa [h0, upd_ne _ _ e] using hm
        obtain ⟨L, h1, h2, h3⟩ := s.wf.rc b m hm0
        exact ⟨L, h1, fun l => by rw [hrd, h2], by rw [h3]; simp [List.count_cons, Ne.symm e]⟩
    · by_cases e : b = h.fresh
      · subst e
        have : m = n0 := by simpa [h0] using hm.symm
        subst this; simp [n0]
      · exact s.wf.pos b m (by simpa [h0, upd_ne _ _ e] using hm)
    · rw [hrd] at hl
      have e : b ≠ h.fresh := fun e => hnoref l (e ▸ hl)
      simpa [h0, upd_ne _ _ e] using s.wf.live l b hl
    · have : b = h.fresh := by simpa using hm
      subst this; simp [h0]
  have w1 : WFw (h.root x).toList (h0.write (.root x) (some h.fresh)) :=
    wf_write (l := .root x) rfl [h.fresh] w0
      (fun a => by show _ + List.count a (h.root x).toList = _; simp; omega)
      (fun a ha => by
        have : h.fresh = a := by simpa using ha
        subst this; simp [h0])
  obtain ⟨h2, e2, w3, s2⟩ := release_ok w1
  refine ⟨g.fr, h2, ?_, q h2 ?_⟩
  · have : h0.write (.root x) (some h.fresh) =
      { node := upd h.node h.fresh (some { key := k, val := v, prev := none, next := none, rc := 1 }),
        root := upd h.root x (some h.fresh), fresh := h.fresh + 1 } := rfl
    rw [this] at e2
    simp [alloc, e2, ← hfr]
  · let g0 : Pic V := ⟨upd g.N g.fr none, upd g.P g.fr none, upd g.K g.fr k, upd g.W g.fr v, g.R,
      fun a => g.U a ∨ a = g.fr, g.fr + 1⟩
    have := Sat.write (g := g0) (h := h0) ?_ ?_ ?_ (.root x) (some h.fresh) w3 s2
    · rw [hfr] at this; exact this
    · intro a n ha
      by_cases e : a = h.fresh
      · subst e
        have : n = n0 := by simpa [h0] using ha.symm
        subst this; simp [n0, g0, ← hfr]
      · have hm0 : h.node a = some n := by simpa [h0, upd_ne _ _ e] using ha
        have e' : a ≠ g.fr := hfr ▸ e
        obtain ⟨f1, f2, f3, f4, f5⟩ := s.node a n hm0
        simp [g0, upd_ne _ _ e', f1, f2, f3, f4, f5]
    · intro r; exact s.root r
    · show h.fresh + 1 = g.fr + 1
      rw [hfr]

/-- Overwriting key or value of a node does not concern the books. -/
theorem wf_data {h : Heap V} (w : WF h) {a : Nat} {n m : Node V} (hn : h.node a = some n) (h1 : m.prev = n.prev)
    (h2 : m.next = n.next) (h3 : m.rc = n.rc) : WF { h with node := upd h.node a (some m) } := by
  have hrd : ∀ l, ({ h with node := upd h.node a (some m) } : Heap V).read l = h.read l := by
    intro l
    cases l with
    | root r => rfl
    | prev b => by_cases e : b = a <;> simp [Heap.read, upd, e, hn, h1]
    | next b => by_cases e : b = a <;> simp [Heap.read, upd, e, hn, h2]
  have hiso : ∀ b, (({ h with node := upd h.node a (some m) } : Heap V).node b).isSome = (h.node b).isSome := by
    intro b; by_cases e : b = a <;> simp [upd, e, hn]
  refine ⟨fun b hb => w.bound b (by rw [← hiso]; exact hb), fun b k hk => ?_, fun b k hk => ?_, fun l b hl => ?_,
    fun b hb => by simp at hb⟩
  · by_cases e : b = a
    · subst e
      have : k = m := by simpa using hk.symm
      subst this
      obtain ⟨L, f1, f2, f3⟩ := w.rc b n hn
      exact ⟨L, f1, fun l => by rw [hrd, f2], by rw [h3, f3]⟩
    · obtain ⟨L, f1, f2, f3⟩ := w.rc b k (by simpa [upd_ne _ _ e] using hk)
      exact ⟨L, f1, fun l => by rw [hrd, f2], f3⟩
  · by_cases e : b = a
    · subst e
      have : k = m := by simpa using hk.symm
      subst this
      rw [h3]; exact w.pos b n hn
    · exact w.pos b k (by simpa [upd_ne _ _ e] using hk)
  · rw [hiso]; rw [hrd] at hl; exact w.live l b hl

theorem wp_setKey {g : Pic V} {h : Heap V} (s : Sat g h) {a : Nat} (ha : Live h a) {k : Int}
    {Q : Unit → Heap V → Prop} (q : ∀ h', Sat { g with K := upd g.K a k } h' → Q () h') : wp (setKey a k) Q h := by
  obtain ⟨n, hn⟩ := Option.isSome_iff_exists.1 ha
  refine ⟨(), { h with node := upd h.node a (some { n with key := k }) }, by simp only [setKey, hn],
    q _ ⟨wf_data s.wf hn rfl rfl rfl, fun b m hm => ?_, s.root, s.fr⟩⟩
  by_cases e : b = a
  · subst e
    have : m = { n with key := k } := by simpa using hm.symm
    subst this
    obtain ⟨f1, f2, f3, f4, f5⟩ := s.node b n hn
    simp [f1, f2, f4, f5]
  · obtain ⟨f1, f2, f3, f4, f5⟩ := s.node b m (by simpa [upd_ne _ _ e] using hm)
    simp [f1, f2, f3, f4, f5, upd_ne _ _ e]

theorem wp_setVal {g : Pic V} {h : Heap V} (s : Sat g h) {a : Nat} (ha : Live h a) {v : V}
    {Q : Unit → Heap V → Prop} (q : ∀ h', Sat { g with W := upd g.W a v } h' → Q () h') : wp (setVal a v) Q h := by
  obtain ⟨n, hn⟩ := Option.isSome_iff_exists.1 ha
  refine ⟨(), { h with node := upd h.node a (some { n with val := v }) }, by simp only [setVal, hn],
    q _ ⟨wf_data s.wf hn rfl rfl rfl, fun b m hm => ?_, s.root, s.fr⟩⟩
  by_cases e : b = a
  · subst e
    have : m = { n with val := v } := by simpa using hm.symm
    subst this
    obtain ⟨f1, f2, f3, f4, f5⟩ := s.node b n hn
    simp [f1, f2, f3, f5]
  · obtain ⟨f1, f2, f3, f4, f5⟩ := s.node b m (by simpa [upd_ne _ _ e] using hm)
    simp [f1, f2, f3, f4, f5, upd_ne _ _ e]

/-- The picture may be replaced by one that agrees on live nodes. -/
theorem Sat.congr {g g' : Pic V} {h : Heap V} (s : Sat g h)
    (hN : ∀ a, Live h a → g'.N a = g.N a) (hP : ∀ a, Live h a → g'.P a = g.P a)
    (hK : ∀ a, Live h a → g'.K a = g.K a) (hW : ∀ a, Live h a → g'.W a = g.W a) (hR : ∀ r, g'.R r = g.R r)
    (hU : ∀ a, Live h a → g.U a → g'.U a) (hf : g'.fr = g.fr) : Sat g' h := by
  refine ⟨s.wf, fun a n hn => ?_, fun r => by rw [hR]; exact s.root r, by rw [hf]; exact s.fr⟩
  have hl : Live h a := by simp [Live, hn]
  obtain ⟨f1, f2, f3, f4, f5⟩ := s.node a n hn
  exact ⟨by rw [hN a hl, f1], by rw [hP a hl, f2], by rw [hK a hl, f3], by rw [hW a hl, f4], hU a hl f5⟩

theorem wp_swapRoots {g : Pic V} {h : Heap V} (s : Sat g h) {x y : Root} (hxy : x ≠ y)
    {Q : Unit → Heap V → Prop}
    (q : ∀ h', Sat { g with R := upd (upd g.R x (g.R y)) y (g.R x) } h' → Q () h') : wp (swapRoots x y) Q h := by
  -- three moves through a place of their own change the same places
  have hw1 : WFw (h.root x).toList (h.write (.root x) none) :=
    wf_write (l := .root x) rfl [] s.wf (fun a => by simp [Heap.read]) (fun a ha => by simp at ha)
  have hry : (h.write (.root x) none).read (.root y) = h.root y := by
    rw [read_write (l := .root x) rfl]; simp [Ne.symm hxy, Heap.read]
  have hw2 : WFw (h.root y).toList ((h.write (.root x) none).write (.root y) (h.root x)) :=
    wf_write (l := .root y) rfl _ hw1 (fun a => by rw [hry]; omega)
      (fun a ha => s.wf.live (.root x) a ha)
  have hrx : ((h.write (.root x) none).write (.root y) (h.root x)).read (.root x) = none := by
    rw [read_write (l := .root y) rfl, if_neg (by simpa using hxy), read_write (l := .root x) rfl]; simp
  have hw3 : WF (((h.write (.root x) none).write (.root y) (h.root x)).write (.root x) (h.root y)) :=
    wf_write (l := .root x) rfl _ hw2 (fun a => by rw [hrx]; simp)
      (fun a ha => s.wf.live (.root y) a ha)
  have he : (((h.write (.root x) none).write (.root y) (h.root x)).write (.root x) (h.root y)) =
      { h with root := upd (upd h.root x (h.root y)) y (h.root x) } := by
    simp only [Heap.write]
    congr 1
    funext r
    by_cases e1 : r = x
    · subst e1; simp [upd, hxy]
    · by_cases e2 : r = y
      · subst e2; simp [upd, e1]
      · simp [upd, e1, e2]
  rw [he] at hw3
  refine ⟨(), _, rfl, q _ ⟨hw3, s.node, fun r => ?_, s.fr⟩⟩
  show upd (upd h.root x (h.root y)) y (h.root x) r = _
  simp only [upd, s.root]

end Mdds.FST.Mem
