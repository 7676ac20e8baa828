import Verif.RTree.Geom
/-! Lemmas about nodes, pointer resets, the way up to the root, and splits. -/
namespace Mdds.RTree

open Node

variable {D : Nat} {V : Type}

/-! ### field lemmas -/

@[simp] theorem box_setPar (p : Par) (n : Node D V) : (n.setPar p).box = n.box := by cases n <;> rfl
@[simp] theorem par_setPar (p : Par) (n : Node D V) : (n.setPar p).par = p := by cases n <;> rfl
@[simp] theorem count_setPar (p : Par) (n : Node D V) : (n.setPar p).count = n.count := by cases n <;> rfl
@[simp] theorem kids_setPar (p : Par) (n : Node D V) : (n.setPar p).kids = n.kids := by cases n <;> rfl
@[simp] theorem valid_setPar (p : Par) (n : Node D V) : (n.setPar p).valid = n.valid := by cases n <;> rfl
@[simp] theorem entries_setPar (p : Par) (n : Node D V) : (n.setPar p).entries = n.entries := by
  cases n <;> simp [setPar, entries]
@[simp] theorem setPar_setPar (p q : Par) (n : Node D V) : (n.setPar q).setPar p = n.setPar p := by
  cases n <;> rfl

@[simp] theorem entries_setBox_dir (b : Box D) (l b' p c v) (ks : List (Node D V)) :
    ((Node.dir l b' p c v ks).setBox b).entries = (Node.dir l b' p c v ks).entries := by
  simp [setBox, entries]

theorem entriesL_eq (ks : List (Node D V)) : entriesL ks = ks.flatMap entries := by
  induction ks with
  | nil => rfl
  | cons k ks ih => simp [entriesL, ih]

theorem entriesL_append (a b : List (Node D V)) : entriesL (a ++ b) = entriesL a ++ entriesL b := by
  simp [entriesL_eq]

theorem entriesL_perm {a b : List (Node D V)} (h : a.Perm b) : (entriesL a).Perm (entriesL b) := by
  rw [entriesL_eq, entriesL_eq]; exact h.flatMap_right _

theorem entriesL_map {f : Node D V → Node D V} (hf : ∀ n, (f n).entries = n.entries)
    (ks : List (Node D V)) : entriesL (ks.map f) = entriesL ks := by
  simp [entriesL_eq, List.flatMap_map, hf]

theorem resetList_eq (ks : List (Node D V)) :
    resetList ks = ks.map fun k => (resetKids k).setPar .right := by
  induction ks with
  | nil => rfl
  | cons k ks ih => simp [resetList, ih]

theorem cloneList_eq (ks : List (Node D V)) : cloneList ks = ks.map clone := by
  induction ks with
  | nil => rfl
  | cons k ks ih => simp [cloneList, ih]

@[simp] theorem box_resetKids (n : Node D V) : n.resetKids.box = n.box := by
  cases n with
  | val => rfl
  | dir l b p c v ks => simp only [resetKids]; split <;> rfl

@[simp] theorem par_resetKids (n : Node D V) : n.resetKids.par = n.par := by
  cases n with
  | val => rfl
  | dir l b p c v ks => simp only [resetKids]; split <;> rfl

@[simp] theorem count_resetKids (n : Node D V) : n.resetKids.count = n.count := by
  cases n with
  | val => rfl
  | dir l b p c v ks => simp only [resetKids]; split <;> rfl

theorem box_reset (n : Node D V) : n.reset.box = n.box := by
  rw [reset, box_resetKids]; cases n <;> rfl

theorem par_reset (n : Node D V) : n.reset.par = n.par := by
  rw [reset, par_resetKids]; cases n <;> rfl

theorem count_reset (n : Node D V) : n.reset.count = n.count := by
  rw [reset, count_resetKids]; cases n <;> rfl

theorem setPar_resetKids (p : Par) (n : Node D V) :
    (n.setPar p).resetKids = n.resetKids.setPar p := by
  cases n with
  | val => rfl
  | dir l b q c v ks => simp only [setPar, resetKids]; split <;> rfl

mutual
theorem entries_resetKids : (n : Node D V) → n.resetKids.entries = n.entries
  | .val b p v => rfl
  | .dir l b p c v ks => by
    simp only [resetKids]
    split
    · rfl
    · simp only [entries]; exact entries_resetList ks
theorem entries_resetList : (ks : List (Node D V)) → entriesL (resetList ks) = entriesL ks
  | [] => rfl
  | k :: ks => by
    simp only [resetList, entriesL, entries_setPar]
    rw [entries_resetKids k, entries_resetList ks]
end

theorem boxes_resetList (ks : List (Node D V)) : (resetList ks).map box = ks.map box := by
  rw [resetList_eq]; simp [Function.comp_def]

@[simp] theorem length_resetList (ks : List (Node D V)) : (resetList ks).length = ks.length := by
  rw [resetList_eq]; simp

@[simp] theorem box_moved (p : Par) (n : Node D V) : (n.moved p).box = n.box := by cases n <;> rfl
@[simp] theorem box_inval (n : Node D V) : n.inval.box = n.box := by cases n <;> rfl
@[simp] theorem count_inval (n : Node D V) : n.inval.count = n.count := by cases n <;> rfl
@[simp] theorem par_inval (n : Node D V) : n.inval.par = n.par := by cases n <;> rfl
@[simp] theorem par_moved (p : Par) (n : Node D V) : (n.moved p).par = n.par := by cases n <;> rfl
@[simp] theorem count_moved (p : Par) (n : Node D V) : (n.moved p).count = n.count := by cases n <;> rfl

@[simp] theorem entries_moved (p : Par) (n : Node D V) : (n.moved p).entries = n.entries := by
  cases n with
  | val => rfl
  | dir l b q c v ks => simp only [moved, entries]; exact entriesL_map (entries_setPar p) ks

@[simp] theorem entries_setValid (x : Bool) (n : Node D V) : (n.setValid x).entries = n.entries := by
  cases n <;> simp [setValid, entries]

@[simp] theorem entries_inval (n : Node D V) : n.inval.entries = n.entries := by simp [inval]

@[simp] theorem inval_inval (n : Node D V) : n.inval.inval = n.inval := by
  cases n <;> simp [inval, moved, setValid, Function.comp_def]

@[simp] theorem entries_pack (n : Node D V) : n.pack.1.entries = n.entries := by
  cases n <;> simp [pack, entries]

@[simp] theorem par_pack (n : Node D V) : n.pack.1.par = n.par := by cases n <;> rfl
@[simp] theorem count_pack (n : Node D V) : n.pack.1.count = n.count := by cases n <;> rfl
@[simp] theorem valid_pack (n : Node D V) : n.pack.1.valid = n.valid := by cases n <;> rfl

theorem inval_setPar (p : Par) (n : Node D V) : (n.setPar p).inval = n.inval.setPar p := by
  cases n <;> rfl

/-! ### well-formed nodes -/

/-- A child of a directory of height `h`. -/
def Kid (S : Shape) : Nat → Node D V → Prop
  | 0, k => ∃ kb kv, k = .val kb .right kv ∧ kb.Valid
  | h + 1, k => k.par = .right ∧ S.lo ≤ k.count ∧ k.count ≤ S.hi ∧ WFN S h k

theorem wfn_dir {S : Shape} {h : Nat} {l b p c v} {ks : List (Node D V)} :
    WFN S h (.dir l b p c v ks) ↔ l = (h == 0) ∧ c = ks.length ∧ Fits S.tight b (ks.map Node.box) ∧
      ∀ k ∈ ks, Kid S h k := by
  cases h <;> simp [WFN, Kid]

theorem wfn_cases {S : Shape} {h : Nat} {n : Node D V} (hn : WFN S h n) :
    ∃ l b p c v ks, n = .dir l b p c v ks := by
  cases n with
  | val => cases h <;> exact hn.elim
  | dir l b p c v ks => exact ⟨_, _, _, _, _, _, rfl⟩

theorem Kid.par {S : Shape} {h : Nat} {k : Node D V} (hk : Kid S h k) : k.par = .right := by
  cases h with
  | zero => obtain ⟨b, v, rfl, _⟩ := hk; rfl
  | succ h => exact hk.1

theorem wfn_resetKids {S : Shape} : ∀ (h : Nat) {n : Node D V}, WFN S h n → WFN S h n.resetKids
  | h, n, hn => by
    obtain ⟨l, b, p, c, v, ks, rfl⟩ := wfn_cases hn
    simp only [resetKids]
    split
    · exact hn
    · rw [wfn_dir] at hn ⊢
      refine ⟨hn.1, by simpa using hn.2.1, by rw [boxes_resetList]; exact hn.2.2.1, ?_⟩
      rw [resetList_eq]
      intro k hk
      simp only [List.mem_map] at hk
      obtain ⟨k0, hk0, rfl⟩ := hk
      have := hn.2.2.2 k0 hk0
      cases h with
      | zero =>
        obtain ⟨kb, kv, rfl, hv⟩ := this
        exact ⟨kb, kv, rfl, hv⟩
      | succ h =>
        obtain ⟨h1, h2, h3, h4⟩ := this
        refine ⟨by simp, by simpa using h2, by simpa using h3, ?_⟩
        have h5 := wfn_resetKids h h4
        obtain ⟨l', b', p', c', v', ks', he⟩ := wfn_cases h5
        rw [he] at h5 ⊢
        simp only [setPar]
        rw [wfn_dir] at h5 ⊢
        exact h5

theorem wfn_setPar {S : Shape} {h : Nat} {n : Node D V} (q : Par) (hn : WFN S h n) :
    WFN S h (n.setPar q) := by
  obtain ⟨l, b, p, c, v, ks, rfl⟩ := wfn_cases hn
  simp only [setPar]
  rw [wfn_dir] at hn ⊢
  exact hn

theorem wfn_setValid {S : Shape} {h : Nat} {n : Node D V} (q : Bool) (hn : WFN S h n) :
    WFN S h (n.setValid q) := by
  obtain ⟨l, b, p, c, v, ks, rfl⟩ := wfn_cases hn
  simp only [setValid]
  rw [wfn_dir] at hn ⊢
  exact hn

theorem kid_resetKids {S : Shape} {h : Nat} {k : Node D V} (hk : Kid S h k) :
    Kid S h (k.resetKids.setPar .right) := by
  cases h with
  | zero => obtain ⟨b, v, rfl, hv⟩ := hk; exact ⟨b, v, rfl, hv⟩
  | succ h =>
    obtain ⟨h1, h2, h3, h4⟩ := hk
    exact ⟨by simp, by simpa using h2, by simpa using h3, wfn_setPar _ (wfn_resetKids h h4)⟩

/-- A moved and invalidated directory is repaired by `reset_parent_pointers_of_children`. -/
theorem wfn_inval_reset {S : Shape} {h : Nat} {n : Node D V} (q : Par) (hn : WFN S h n) :
    WFN S h ((n.moved q).setValid false).resetKids := by
  obtain ⟨l, b, p, c, v, ks, rfl⟩ := wfn_cases hn
  simp only [moved, setValid, resetKids]
  rw [wfn_dir] at hn
  simp only [Bool.false_eq_true, if_false]
  rw [wfn_dir]
  refine ⟨hn.1, by simpa using hn.2.1, ?_, ?_⟩
  · rw [boxes_resetList]; simpa [Function.comp_def] using hn.2.2.1
  · rw [resetList_eq]
    intro k hk
    simp only [List.mem_map] at hk
    obtain ⟨k1, ⟨k0, hk0, rfl⟩, rfl⟩ := hk
    rw [setPar_resetKids, setPar_setPar]
    exact kid_resetKids (hn.2.2.2 k0 hk0)

theorem kid_inval_reset {S : Shape} {h : Nat} {k : Node D V} (hk : Kid S h k) :
    Kid S h (k.inval.resetKids.setPar .right) := by
  cases h with
  | zero => obtain ⟨b, v, rfl, hv⟩ := hk; exact ⟨b, v, rfl, hv⟩
  | succ h =>
    obtain ⟨h1, h2, h3, h4⟩ := hk
    refine ⟨by simp, ?_, ?_, wfn_setPar _ (wfn_inval_reset _ h4)⟩
    · simpa using h2
    · simpa using h3

/-- Children that were moved and invalidated. -/
def Loose (S : Shape) (h : Nat) (k : Node D V) : Prop := ∃ k0, Kid S h k0 ∧ k = k0.inval

theorem kids_of_loose {S : Shape} {h : Nat} {L : List (Node D V)} (hL : ∀ k ∈ L, Loose S h k) (q : Par) :
    ∀ k ∈ resetList (L.map (setPar q)), Kid S h k := by
  rw [resetList_eq]
  intro k hk
  simp only [List.map_map, List.mem_map] at hk
  obtain ⟨k1, hk1, rfl⟩ := hk
  obtain ⟨k0, h0, rfl⟩ := hL k1 hk1
  simp only [Function.comp_apply, setPar_resetKids, setPar_setPar]
  exact kid_inval_reset h0

theorem kids_of_loose' {S : Shape} {h : Nat} {L : List (Node D V)} (hL : ∀ k ∈ L, Loose S h k) :
    ∀ k ∈ resetList L, Kid S h k := by
  rw [resetList_eq]
  intro k hk
  simp only [List.mem_map] at hk
  obtain ⟨k1, hk1, rfl⟩ := hk
  obtain ⟨k0, h0, rfl⟩ := hL k1 hk1
  exact kid_inval_reset h0

/-! ### sorting and choosing a distribution -/

theorem sortByDim_perm (cfg : Cfg D V) (i : Fin D) (ks : List (Node D V)) :
    (sortByDim cfg i ks).Perm (ks.map inval) := (cfg.nodes_perm _ _).map _

theorem foldl_sort {α : Type} (cfg : Cfg D V) (g : α → List (Node D V) → Fin D → α) (is : List (Fin D)) :
    ∀ (a : α) (ks : List (Node D V)),
      ((is.foldl (fun (st : α × List (Node D V)) i =>
        (g st.1 (sortByDim cfg i st.2) i, sortByDim cfg i st.2)) (a, ks)).2.map inval).Perm (ks.map inval) := by
  induction is with
  | nil => intro a ks; exact List.Perm.refl _
  | cons i is ih =>
    intro a ks
    simp only [List.foldl_cons]
    refine (ih _ _).trans ?_
    refine ((sortByDim_perm cfg i ks).map inval).trans ?_
    simp [Function.comp_def]

theorem foldl_assign_some {α β : Type} (f : β → α → Int) (l : List α) :
    ∀ (st : Option (Int × α)) (b : β), l ≠ [] ∨ st.isSome →
      (l.foldl (fun st d => assignMin st (f b d) d) st).isSome := by
  induction l with
  | nil => intro st b h; simpa using h
  | cons a l ih =>
    intro st b _
    simp only [List.foldl_cons]
    apply ih
    right
    unfold assignMin
    split
    · rfl
    · split <;> rfl

theorem foldl_assign_mem {α : Type} (P : α → Prop) (f : α → Int) (l : List α) :
    ∀ (st : Option (Int × α)), (∀ x, st = some x → P x.2) → (∀ d ∈ l, P d) →
      ∀ x, l.foldl (fun st d => assignMin st (f d) d) st = some x → P x.2 := by
  induction l with
  | nil => intro st h1 _ x hx; exact h1 x hx
  | cons a l ih =>
    intro st h1 h2 x hx
    simp only [List.foldl_cons] at hx
    refine ih _ ?_ (fun d hd => h2 d (List.mem_cons_of_mem _ hd)) x hx
    intro y hy
    unfold assignMin at hy
    split at hy
    · simp only [Option.some.injEq] at hy; subst hy; exact h2 a (by simp)
    · rename_i v0 p0
      split at hy
      · simp only [Option.some.injEq] at hy; subst hy; exact h2 a (by simp)
      · simp only [Option.some.injEq] at hy; subst hy; exact h1 _ rfl

theorem pickDist_range (cfg : Cfg D V) (ks : List (Node D V)) :
    1 ≤ pickDist cfg ks ∧ pickDist cfg ks ≤ maxDist cfg := by
  unfold pickDist
  have hne : dists cfg ≠ [] := by simp [dists, maxDist]
  have h1 := foldl_assign_some (β := Unit) (fun _ dist => calcIntersection cfg.ar (ext ((ks.take (group1 cfg dist)).map Node.box))
        (ext ((ks.drop (group1 cfg dist)).map Node.box))) (dists cfg) none () (Or.inl hne)
  have h2 := foldl_assign_mem (fun d => 1 ≤ d ∧ d ≤ maxDist cfg)
    (fun dist => calcIntersection cfg.ar (ext ((ks.take (group1 cfg dist)).map Node.box))
        (ext ((ks.drop (group1 cfg dist)).map Node.box))) (dists cfg) none (by simp)
    (by intro d hd; simp only [dists, List.mem_map, List.mem_range] at hd; omega)
  split
  · rename_i d heq
    exact h2 _ heq
  · rename_i heq
    rw [heq] at h1; simp at h1

theorem sortBySplitDim_perm (cfg : Cfg D V) (hD : 0 < D) (ks : List (Node D V)) :
    (sortBySplitDim cfg ks).Perm (ks.map inval) := by
  unfold sortBySplitDim
  have h1 := foldl_sort cfg (fun m ks i => assignMin m (sumOfMargins cfg ks) i) (axes D) none ks
  revert h1
  generalize hr : (axes D).foldl (fun (st : Option (Int × Fin D) × List (Node D V)) i =>
    (assignMin st.1 (sumOfMargins cfg (sortByDim cfg i st.2)) i, sortByDim cfg i st.2)) (none, ks) = r
  intro h1
  have hs : ∀ (is : List (Fin D)) (st : Option (Int × Fin D) × List (Node D V)), is ≠ [] ∨ st.1.isSome →
      (is.foldl (fun (st : Option (Int × Fin D) × List (Node D V)) i =>
        (assignMin st.1 (sumOfMargins cfg (sortByDim cfg i st.2)) i, sortByDim cfg i st.2)) st).1.isSome := by
    intro is
    induction is with
    | nil => intro st h; simpa using h
    | cons i is ih =>
      intro st _
      simp only [List.foldl_cons]
      apply ih; right
      unfold assignMin
      split
      · rfl
      · split <;> rfl
  have h2 := hs (axes D) (none, ks) (Or.inl (by
    intro e
    have := mem_axes (⟨0, hD⟩ : Fin D)
    rw [e] at this; simp at this))
  rw [hr] at h2
  simp only
  split
  · rename_i i heq
    exact (sortByDim_perm cfg i _).trans h1
  · rename_i heq
    rw [heq] at h2; simp at h2

end Mdds.RTree
