import Verif.Mtv.CowLemmas
/-!
# multi_type_vector: who owns which element block
-/

namespace Mdds.Mtv.Cow

set_option linter.unusedSectionVars false
set_option linter.unusedVariables false

variable {α : Type} [DecidableEq α]

/-- The blocks a container has to delete itself. -/
def ownC : Option Ctr → List Nat
  | some c => if c.holder = none then addrs c.slots else []
  | none => []

/-- The blocks a shared holder has to delete. -/
def ownH : Option Holder → List Nat
  | some k => k.blocks
  | none => []

/-- Whether a container has a reference to holder `h`. -/
def bors (h : Nat) : Option Ctr → Bool
  | some c => decide (c.holder = some h)
  | none => false

/-- Every block has exactly one owner, a container or a holder; holders count their borrowers.
`e` is a reference that is being made or given up. -/
structure Core (T : Traits) (hp : Heap α) (hs : List (Option Holder)) (cs : List (Option Ctr)) (n : Nat)
    (e : Option Nat) : Prop where
  own : ∀ a, (cs.flatMap ownC).count a + (hs.flatMap ownH).count a = if (hp a).isSome then 1 else 0
  fresh : ∀ a, n ≤ a → hp a = none
  refs : ∀ (h : Nat) (k : Holder), hs[h]?.join = some k → k.refs = cs.countP (bors h) + (if e = some h then 1 else 0) ∧ 0 < k.refs
  clon : ∀ (h : Nat) (k : Holder), hs[h]?.join = some k → ∀ a ∈ k.blocks, ∀ x, hp a = some x → T.clonable x.1 = true
  bor : ∀ (i : Nat) (c : Ctr) (h : Nat), cs[i]?.join = some c → c.holder = some h → ∃ k, hs[h]?.join = some k ∧ k.blocks = addrs c.slots
  pend : ∀ h : Nat, e = some h → ∃ k, hs[h]?.join = some k

variable {T : Traits} {hp : Heap α} {hs : List (Option Holder)} {cs : List (Option Ctr)} {n : Nat} {e : Option Nat}

theorem Core.live (C : Core T hp hs cs n e) {i : Nat} {c : Ctr} (hc : cs[i]?.join = some c) :
    ∀ a ∈ addrs c.slots, (hp a).isSome := by
  intro a ha
  have h0 := C.own a
  by_contra hn
  rw [if_neg hn] at h0
  rw [← List.count_pos_iff] at ha
  rcases hh : c.holder with _ | h
  · have := count_le_flatMap ownC (some c) a cs i (join_some.1 hc)
    simp [ownC, hh] at this
    omega
  · obtain ⟨k, h1, h2⟩ := C.bor i c h hc hh
    have := count_le_flatMap ownH (some k) a hs h (join_some.1 h1)
    simp [ownH, h2] at this
    omega

theorem Core.apart (C : Core T hp hs cs n e) {i j : Nat} {c d : Ctr} (hij : i ≠ j) (hc : cs[i]?.join = some c)
    (hd : cs[j]?.join = some d) (ho : c.holder = none) : ∀ a ∈ addrs d.slots, a ∉ addrs c.slots := by
  intro a ha hb
  have h0 := C.own a
  rw [← List.count_pos_iff] at ha hb
  have hle : (if (hp a).isSome then 1 else 0) ≤ 1 := by split <;> omega
  rcases hh : d.holder with _ | h
  · have := count_le_flatMap2 ownC (some c) (some d) a cs i j hij (join_some.1 hc) (join_some.1 hd)
    simp [ownC, hh, ho] at this
    omega
  · obtain ⟨k, h1, h2⟩ := C.bor j d h hd hh
    have h3 := count_le_flatMap ownH (some k) a hs h (join_some.1 h1)
    have h4 := count_le_flatMap ownC (some c) a cs i (join_some.1 hc)
    simp [ownH, h2] at h3
    simp [ownC, ho] at h4
    omega

/-- The list of containers may be rearranged. -/
theorem Core.ctrs {ds : List (Option Ctr)} (C : Core T hp hs cs n e)
    (h1 : ∀ a, (ds.flatMap ownC).count a = (cs.flatMap ownC).count a)
    (h2 : ∀ h, ds.countP (bors h) = cs.countP (bors h))
    (h3 : ∀ (i : Nat) c, ds[i]?.join = some c → c.holder ≠ none → ∃ j : Nat, cs[j]?.join = some c) :
    Core T hp hs ds n e :=
  ⟨fun a => by rw [h1]; exact C.own a, C.fresh, fun h k hk => by rw [h2]; exact C.refs h k hk, C.clon,
    fun i c h hc hh => by
      obtain ⟨j, hj⟩ := h3 i c hc (by simp [hh])
      exact C.bor j c h hj hh, C.pend⟩

theorem bors_none {x : Option Ctr} (hx : ∀ c, x = some c → c.holder = none) (h : Nat) : bors h x = false := by
  rcases x with _ | c
  · rfl
  · simp [bors, hx c rfl]

theorem ctrs_set_own {i : Nat} {x y : Option Ctr} (hi : cs[i]? = some x) (a : Nat) :
    ((cs.set i y).flatMap ownC).count a + (ownC x).count a = (cs.flatMap ownC).count a + (ownC y).count a :=
  count_flatMap_set ownC y x a cs i hi

theorem ctrs_set_ref {i : Nat} {x y : Option Ctr} (hi : cs[i]? = some x) (h : Nat) :
    (cs.set i y).countP (bors h) + (if bors h x then 1 else 0) = cs.countP (bors h) + (if bors h y then 1 else 0) :=
  countP_set (bors h) y x cs i hi

/-- An owner's blocks are deleted. -/
theorem Core.free (C : Core T hp hs cs n e) {i : Nat} {c : Ctr} (hc : cs[i]?.join = some c) (ho : c.holder = none)
    {y : Option Ctr} (hy : ∀ c, y = some c → c.holder = none ∧ addrs c.slots = []) :
    ∃ hp', freeAll (addrs c.slots) hp = some hp' ∧ Core T hp' hs (cs.set i y) n e ∧
      ∀ (j : Nat) (d : Ctr), j ≠ i → cs[j]?.join = some d → ∀ a ∈ addrs d.slots, hp' a = hp a := by
  have hi := join_some.1 hc
  have hy1 : ownC y = [] := by
    rcases y with _ | d
    · rfl
    · simp [ownC, hy d rfl]
  have hown : ∀ a, (addrs c.slots).count a + ((cs.set i y).flatMap ownC).count a = (cs.flatMap ownC).count a := by
    intro a
    have := ctrs_set_own (y := y) hi a
    rw [hy1] at this
    simp [ownC, ho] at this
    omega
  obtain ⟨hp', e1, e2⟩ := freeAll_ok (addrs c.slots) hp (by
    intro a
    have h1 := hown a
    have h2 := C.own a
    omega)
  have hsub : ∀ a x, hp' a = some x → hp a = some x := by
    intro a x hx
    rw [e2] at hx
    split at hx
    · cases hx
    · exact hx
  have hl := at_lt hc
  refine ⟨hp', e1, ⟨?_, ?_, ?_, ?_, ?_, C.pend⟩, ?_⟩
  · intro a
    have h1 := hown a
    have h2 := C.own a
    rw [e2]
    by_cases hm : a ∈ addrs c.slots
    · have h3 := C.live hc a hm
      have h4 : 0 < (addrs c.slots).count a := List.count_pos_iff.2 hm
      rw [if_pos h3] at h2
      simp [hm]; omega
    · have h4 : (addrs c.slots).count a = 0 := List.count_eq_zero.2 hm
      rw [if_neg hm]; omega
  · intro a ha; rw [e2]; simp [C.fresh a ha]
  · intro h k hk
    have h1 := C.refs h k hk
    have h2 := ctrs_set_ref (y := y) hi h
    rw [bors_none (fun c hc => (hy c hc).1)] at h2
    simp [bors, ho] at h2
    rw [h2]; exact h1
  · intro h k hk a ha x hx
    exact C.clon h k hk a ha x (hsub a x hx)
  · intro j d h hd hh
    rw [at_set _ _ _ _ hl] at hd
    split at hd
    · rw [(hy d hd).1] at hh; cases hh
    · exact C.bor j d h hd hh
  · intro j d hj hd a ha
    rw [e2, if_neg (C.apart (fun e => hj e.symm) hc hd ho a ha)]

/-- A container gets new blocks. -/
theorem Core.alloc (C : Core T hp hs cs n e) (bs : List (Blk α)) :
    ∃ xs m hp' bs', allocAll bs n hp = (xs, m, hp') ∧ loadBlocks hp' xs = some bs' ∧ bs'.map strip = bs.map strip ∧
      (addrs xs).length = (ids bs).length ∧
      (∀ (j : Nat) (d : Ctr), cs[j]?.join = some d → ∀ a ∈ addrs d.slots, hp' a = hp a) ∧
      (∀ (i : Nat) (x : Option Ctr) cur evs, cs[i]? = some x → (∀ c, x = some c → c.holder = none ∧ addrs c.slots = []) →
        Core T hp' hs (cs.set i (some ⟨xs, cur, evs, none⟩)) m e) ∧
      (∀ cur evs, Core T hp' hs (cs ++ [some ⟨xs, cur, evs, none⟩]) m e) := by
  obtain ⟨xs, m, hp', e1, h1, h2, h3, h4, h5, h6, bs', h7, h8⟩ := allocAll_ok bs n hp C.fresh
  have hlt : ∀ a, (hp a).isSome → a < n := by
    intro a ha
    by_contra hn
    rw [C.fresh a (by omega)] at ha
    simp at ha
  have hown : ∀ a, (if (hp' a).isSome then 1 else 0) = (if (hp a).isSome then 1 else 0) + (addrs xs).count a := by
    intro a
    rw [h5]
    by_cases ha : a < n
    · rw [h2 a ha, if_neg (c := n ≤ a ∧ a < m) (by omega)]; rfl
    · rw [C.fresh a (by omega)]
      by_cases hm : a < m
      · have := h4 a (by omega) hm
        simp [this, hm]; omega
      · rw [h3 a (by omega), if_neg (c := n ≤ a ∧ a < m) (by omega)]; rfl
  have hclon : ∀ (h : Nat) (k : Holder), hs[h]?.join = some k → ∀ a ∈ k.blocks, ∀ x, hp' a = some x → T.clonable x.1 = true := by
    intro h k hk a ha x hx
    have : (hp a).isSome := by
      have h0 := C.own a
      have := count_le_flatMap ownH (some k) a hs h (join_some.1 hk)
      simp only [ownH] at this
      rw [← List.count_pos_iff] at ha
      by_contra hn
      rw [if_neg hn] at h0
      omega
    rw [h2 a (hlt a this)] at hx
    exact C.clon h k hk a ha x hx
  refine ⟨xs, m, hp', bs', e1, h7, h8, h6, ?_, ?_, ?_⟩
  · intro j d hd a ha
    exact h2 a (hlt a (C.live hd a ha))
  · intro i x cur evs hi hx
    have hx1 : ownC x = [] := by
      rcases x with _ | d
      · rfl
      · simp [ownC, hx d rfl]
    refine ⟨?_, h3, ?_, hclon, ?_, C.pend⟩
    · intro a
      have := ctrs_set_own (y := some ⟨xs, cur, evs, none⟩) hi a
      rw [hx1] at this
      simp [ownC] at this
      have h0 := C.own a
      rw [hown]
      omega
    · intro h k hk
      have h1 := C.refs h k hk
      have h2 := ctrs_set_ref (y := some ⟨xs, cur, evs, none⟩) hi h
      rw [bors_none (fun c hc => (hx c hc).1)] at h2
      simp [bors] at h2
      rw [h2]; exact h1
    · intro j d h hd hh
      rw [at_set _ _ _ _ (List.getElem?_eq_some_iff.1 hi).1] at hd
      split at hd
      · cases hd; cases hh
      · exact C.bor j d h hd hh
  · intro cur evs
    refine ⟨?_, h3, ?_, hclon, ?_, C.pend⟩
    · intro a
      have h0 := C.own a
      rw [hown]
      simp [ownC] at h0 ⊢
      omega
    · intro h k hk
      have h1 := C.refs h k hk
      simpa [List.countP_append, List.countP_cons, bors] using h1
    · intro j d h hd hh
      rw [at_append] at hd
      split at hd
      · cases hd; cases hh
      · exact C.bor j d h hd hh

/-- A borrower lets go of its holder. -/
theorem Core.leave (C : Core T hp hs cs n none) {i : Nat} {c : Ctr} {h : Nat} (hc : cs[i]?.join = some c)
    (hh : c.holder = some h) {y : Option Ctr} (hy : ∀ c, y = some c → c.holder = none ∧ addrs c.slots = []) :
    Core T hp hs (cs.set i y) n (some h) := by
  have hi := join_some.1 hc
  have hy1 : ownC y = [] := by
    rcases y with _ | d
    · rfl
    · simp [ownC, hy d rfl]
  refine ⟨?_, C.fresh, ?_, C.clon, ?_, ?_⟩
  · intro a
    have := ctrs_set_own (y := y) hi a
    rw [hy1] at this
    simp [ownC, hh] at this
    have h0 := C.own a
    omega
  · intro h' k hk
    have h1 := C.refs h' k hk
    have h2 := ctrs_set_ref (y := y) hi h'
    rw [bors_none (fun c hc => (hy c hc).1)] at h2
    simp [bors, hh] at h2
    simp at h1
    simp
    omega
  · intro j d h' hd hh'
    rw [at_set _ _ _ _ (at_lt hc)] at hd
    split at hd
    · rw [(hy d hd).1] at hh'; cases hh'
    · exact C.bor j d h' hd hh'
  · intro h' e'
    cases e'
    obtain ⟨k, hk, -⟩ := C.bor i c h hc hh
    exact ⟨k, hk⟩

theorem holders_set {h : Nat} {k : Holder} {y : Option Holder} (hk : hs[h]?.join = some k) (a : Nat) :
    ((hs.set h y).flatMap ownH).count a + k.blocks.count a = (hs.flatMap ownH).count a + (ownH y).count a :=
  count_flatMap_set ownH y (some k) a hs h (join_some.1 hk)

/-- One more reference. -/
theorem Core.ref (C : Core T hp hs cs n none) {h : Nat} {k : Holder} (hk : hs[h]?.join = some k) :
    Core T hp (hs.set h (some { k with refs := k.refs + 1 })) cs n (some h) := by
  have hl := at_lt hk
  refine ⟨?_, C.fresh, ?_, ?_, ?_, ?_⟩
  · intro a
    have h0 := C.own a
    have h1 := holders_set (y := some { k with refs := k.refs + 1 }) hk a
    simp only [ownH] at h1
    omega
  · intro h' k' hk'
    rw [at_set _ _ _ _ hl] at hk'
    split at hk'
    · rename_i e; subst e
      cases hk'
      have := C.refs h k hk
      simp at this ⊢; omega
    · rename_i e
      have := C.refs h' k' hk'
      simp [e] at this ⊢; exact this
  · intro h' k' hk'
    rw [at_set _ _ _ _ hl] at hk'
    split at hk'
    · cases hk'; exact C.clon h k hk
    · exact C.clon h' k' hk'
  · intro i c h' hc hh
    obtain ⟨k', h1, h2⟩ := C.bor i c h' hc hh
    rw [at_set _ _ _ _ hl]
    split
    · rename_i e; subst e
      rw [hk] at h1; cases h1
      exact ⟨_, rfl, h2⟩
    · exact ⟨k', h1, h2⟩
  · intro h' e'
    cases e'
    rw [at_set _ _ _ _ hl, if_pos rfl]
    exact ⟨_, rfl⟩

/-- A new borrower. -/
theorem Core.join {h : Nat} (C : Core T hp hs cs n (some h)) {c : Ctr} (hh : c.holder = some h)
    {k : Holder} (hk : hs[h]?.join = some k) (hb : k.blocks = addrs c.slots) :
    Core T hp hs (cs ++ [some c]) n none := by
  refine ⟨?_, C.fresh, ?_, C.clon, ?_, ?_⟩
  · intro a
    have h0 := C.own a
    simp [ownC, hh] at h0 ⊢
    exact h0
  · intro h' k' hk'
    have := C.refs h' k' hk'
    simp [List.countP_append, List.countP_cons, bors, hh] at this ⊢
    omega
  · intro i d h' hd hh'
    rw [at_append] at hd
    split at hd
    · cases hd; rw [hh] at hh'; cases hh'; exact ⟨k, hk, hb⟩
    · exact C.bor i d h' hd hh'
  · intro h' e'; cases e'

/-- A reference is given up; the last one deletes the blocks. -/
theorem Core.drop {w : World α} {h : Nat} (C : Core T w.heap w.holders w.ctrs w.next (some h)) :
    ∃ w', dropRef h w = .ok w' ∧ w'.ctrs = w.ctrs ∧ w'.logs = w.logs ∧
      Core T w'.heap w'.holders w'.ctrs w'.next none ∧
      ∀ (j : Nat) d, w.ctrs[j]?.join = some d → ∀ a ∈ addrs d.slots, w'.heap a = w.heap a := by
  obtain ⟨k, hk⟩ := C.pend h rfl
  have hl := at_lt hk
  obtain ⟨hr, hr0⟩ := C.refs h k hk
  simp at hr
  by_cases h1 : k.refs = 1
  · have h0 : w.ctrs.countP (bors h) = 0 := by omega
    have hnb : ∀ (j : Nat) d, w.ctrs[j]?.join = some d → d.holder ≠ some h := by
      intro j d hd hh
      have := List.countP_eq_zero.1 h0 (some d) (List.mem_of_getElem? (join_some.1 hd))
      simp [bors, hh] at this
    obtain ⟨hp', e1, e2⟩ := freeAll_ok k.blocks w.heap (by
      intro a
      have h2 := C.own a
      have h3 := count_le_flatMap ownH (some k) a w.holders h (join_some.1 hk)
      simp only [ownH] at h3
      omega)
    refine ⟨{ w with heap := hp', holders := w.holders.set h none }, ?_, rfl, rfl, ⟨?_, ?_, ?_, ?_, ?_, ?_⟩, ?_⟩
    · simp [dropRef, hk, h1, e1]
    · intro a
      have h2 := C.own a
      have h3 := holders_set (y := none) hk a
      simp only [ownH, List.count_nil] at h3
      show _ = if (hp' a).isSome then 1 else 0
      rw [e2]
      by_cases hm : a ∈ k.blocks
      · have h4 : 0 < k.blocks.count a := List.count_pos_iff.2 hm
        have : (if (w.heap a).isSome then 1 else 0) ≤ 1 := by split <;> omega
        simp [hm]; simp at h3; omega
      · have h4 : k.blocks.count a = 0 := List.count_eq_zero.2 hm
        rw [if_neg hm]
        dsimp only; omega
    · intro a ha; simp [e2, C.fresh a ha]
    · intro h' k' hk'
      simp only [at_set _ _ _ _ hl] at hk'
      split at hk'
      · cases hk'
      · rename_i e
        have := C.refs h' k' hk'
        simp [e] at this ⊢; exact this
    · intro h' k' hk' a ha x hx
      simp only [at_set _ _ _ _ hl] at hk'
      split at hk'
      · cases hk'
      · simp only [e2] at hx
        split at hx
        · cases hx
        · exact C.clon h' k' hk' a ha x hx
    · intro i c h' hc hh
      obtain ⟨k', h3, h4⟩ := C.bor i c h' hc hh
      refine ⟨k', ?_, h4⟩
      simp only [at_set _ _ _ _ hl]
      rw [if_neg (fun e => hnb i c hc (by rw [hh, e]))]
      exact h3
    · intro h' e'; cases e'
    · intro j d hd a ha
      simp only [e2]
      rw [if_neg]
      intro hm
      have h2 := C.own a
      have : (if (w.heap a).isSome then 1 else 0) ≤ 1 := by split <;> omega
      rw [← List.count_pos_iff] at hm ha
      rcases hh : d.holder with _ | h'
      · have h3 := count_le_flatMap ownH (some k) a w.holders h (join_some.1 hk)
        have h4 := count_le_flatMap ownC (some d) a w.ctrs j (join_some.1 hd)
        simp only [ownH] at h3
        simp [ownC, hh] at h4
        omega
      · obtain ⟨k', h3, h4⟩ := C.bor j d h' hd hh
        have hne : h' ≠ h := fun e => hnb j d hd (by rw [hh, e])
        have h5 := count_le_flatMap2 ownH (some k') (some k) a w.holders h' h hne (join_some.1 h3) (join_some.1 hk)
        simp only [ownH, h4] at h5
        omega
  · refine ⟨{ w with holders := w.holders.set h (some { k with refs := k.refs - 1 }) }, ?_, rfl, rfl, ⟨?_, C.fresh, ?_, ?_, ?_, ?_⟩, fun _ _ _ _ _ => rfl⟩
    · simp [dropRef, hk, h1, show k.refs ≠ 0 by omega]
    · intro a
      have h2 := C.own a
      have h3 := holders_set (y := some { k with refs := k.refs - 1 }) hk a
      simp only [ownH] at h3
      dsimp only
      omega
    · intro h' k' hk'
      simp only [at_set _ _ _ _ hl] at hk'
      split at hk'
      · rename_i e; subst e
        cases hk'
        simp; omega
      · rename_i e
        have := C.refs h' k' hk'
        simp [e] at this ⊢; exact this
    · intro h' k' hk'
      simp only [at_set _ _ _ _ hl] at hk'
      split at hk'
      · cases hk'; exact C.clon h k hk
      · exact C.clon h' k' hk'
    · intro i c h' hc hh
      obtain ⟨k', h3, h4⟩ := C.bor i c h' hc hh
      simp only [at_set _ _ _ _ hl]
      split
      · rename_i e; subst e
        rw [hk] at h3; cases h3
        exact ⟨_, rfl, h4⟩
      · exact ⟨k', h3, h4⟩
    · intro h' e'; cases e'

/-- An owner hands its blocks to a new holder. -/
theorem Core.share (C : Core T hp hs cs n none) {i : Nat} {c : Ctr} (hc : cs[i]?.join = some c) (ho : c.holder = none)
    (ht : ∀ a ∈ addrs c.slots, ∀ x, hp a = some x → T.clonable x.1 = true) :
    Core T hp (hs ++ [some ⟨addrs c.slots, 1⟩]) (cs.set i (some { c with holder := some hs.length })) n none := by
  have hi := join_some.1 hc
  have hold : ∀ (h : Nat) (k : Holder), (hs ++ [some (⟨addrs c.slots, 1⟩ : Holder)])[h]?.join = some k →
      (h = hs.length ∧ k = ⟨addrs c.slots, 1⟩) ∨ (h ≠ hs.length ∧ hs[h]?.join = some k) := by
    intro h k hk
    rw [at_append] at hk
    split at hk
    · rename_i e; cases hk; exact Or.inl ⟨e, rfl⟩
    · rename_i e; exact Or.inr ⟨e, hk⟩
  have hcnt : cs.countP (bors hs.length) = 0 := by
    rw [List.countP_eq_zero]
    intro x hx hb
    rcases x with _ | d
    · simp [bors] at hb
    · simp [bors] at hb
      obtain ⟨j, hj⟩ := List.getElem?_of_mem hx
      obtain ⟨k, hk, -⟩ := C.bor j d _ (join_some.2 hj) hb
      have := at_lt hk
      omega
  refine ⟨?_, C.fresh, ?_, ?_, ?_, ?_⟩
  · intro a
    have h0 := C.own a
    have h1 := ctrs_set_own (y := some { c with holder := some hs.length }) hi a
    simp [ownC, ho] at h1
    simp [ownC, ownH] at h0 ⊢
    omega
  · intro h k hk
    have h2 := ctrs_set_ref (y := some { c with holder := some hs.length }) hi h
    simp [bors, ho] at h2
    rcases hold h k hk with ⟨rfl, rfl⟩ | ⟨hne, hk⟩
    · simp [hcnt] at h2
      simp; omega
    · have h1 := C.refs h k hk
      rw [if_neg (fun e => hne e.symm)] at h2
      simp at h1 ⊢
      omega
  · intro h k hk
    rcases hold h k hk with ⟨rfl, rfl⟩ | ⟨hne, hk⟩
    · exact ht
    · exact C.clon h k hk
  · intro j d h hd hh
    rw [at_set _ _ _ _ (at_lt hc)] at hd
    split at hd
    · cases hd
      simp at hh
      subst hh
      exact ⟨⟨addrs c.slots, 1⟩, by simp, rfl⟩
    · obtain ⟨k, h1, h2⟩ := C.bor j d h hd hh
      refine ⟨k, ?_, h2⟩
      rw [at_append, if_neg (by have := at_lt h1; omega)]
      exact h1
  · intro h' e'; cases e'

end Mdds.Mtv.Cow
