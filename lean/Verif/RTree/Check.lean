import Verif.RTree.Props
/-!
C64: what a successful `check_integrity()` of `mdds::rtree` says about a tree, whatever history it came from.
-/
namespace Mdds.RTree

open Node

variable {D : Nat} {V : Type}

/-- A directory and its children: the stored count is the number of children, there are not too many, the stored box is
their exact bounding box, each child points back to this directory, and the children are values if and only if the
directory is a leaf directory. -/
structure DirOk (cfg : Cfg D V) (m : Node D V) : Prop where
  count : m.count = m.kids.length
  room : m.kids.length ≤ cfg.maxSize
  box : Bounding m.box (m.kids.map Node.box)
  back : ∀ k ∈ m.kids, k.par = .right
  level : ∀ k ∈ m.kids, m.isLeaf = true ↔ ∃ b p v, k = .val b p v

/-- What the check looks for, in words: the root is a directory without a parent, every directory is in order, and every
directory but a root that is a leaf holds the minimum number of children. -/
structure Sound (cfg : Cfg D V) (t : Node D V) : Prop where
  top : t.par = .null
  dir : ∀ b p v, t ≠ .val b p v
  dirs : ∀ m ∈ dirs t, DirOk cfg m
  fill : ∀ m ∈ dirsL t.kids, cfg.minSize ≤ m.kids.length
  root : t.isLeaf = true ∨ cfg.minSize ≤ t.kids.length

theorem dirsL_eq (ks : List (Node D V)) : dirsL ks = ks.flatMap RTree.dirs := by
  induction ks with
  | nil => rfl
  | cons k ks ih => simp [dirsL, ih]

theorem integrityL_iff {cfg : Cfg D V} {p : Bool × Box D} (ks : List (Node D V)) :
    integrityL cfg p ks = true ↔ ∀ k ∈ ks, integrityN cfg (some p) k = true := by
  induction ks with
  | nil => simp [integrityL]
  | cons k ks ih => simp [integrityL, ih]

/-- What the check wants of a child. -/
def ChildOk (cfg : Cfg D V) (pl : Bool) (pb : Box D) (k : Node D V) : Prop :=
  k.par = .right ∧ Covers pb [k.box] ∧ (pl = true ↔ ∃ b p v, k = .val b p v) ∧
    ∀ m ∈ dirs k, DirOk cfg m ∧ cfg.minSize ≤ m.kids.length

mutual
theorem integrityN_iff {cfg : Cfg D V} : ∀ (n : Node D V) (pl : Bool) (pb : Box D),
    integrityN cfg (some (pl, pb)) n = true ↔ ChildOk cfg pl pb n
  | .val b p v, pl, pb => by
    simp only [integrityN, Bool.and_eq_true, decide_eq_true_eq, contains_iff, ChildOk, Node.par, Node.box, dirs]
    constructor
    · rintro ⟨⟨h1, h2⟩, h3⟩
      exact ⟨h1, h2, by simp [h3], by simp⟩
    · rintro ⟨h1, h2, h3, -⟩
      exact ⟨⟨h1, h2⟩, h3.2 ⟨b, p, v, rfl⟩⟩
  | .dir l b p c v ks, pl, pb => by
    have ih := integrityN_all (cfg := cfg) ks l b
    simp only [integrityN, Bool.and_eq_true, decide_eq_true_eq, contains_iff, ChildOk, Node.par, Node.box, dirs, Bool.or_eq_true,
      Bool.not_eq_true', integrityL_iff, ih]
    constructor
    · rintro ⟨⟨⟨⟨⟨⟨⟨h1, h2⟩, h3⟩, h4⟩, h5⟩, h6⟩, h7⟩, h8⟩
      refine ⟨h1, h2, by simp [h3], ?_⟩
      intro m hm
      rw [List.mem_cons, dirsL_eq, List.mem_flatMap] at hm
      rcases hm with rfl | ⟨k, hk, hm⟩
      · refine ⟨⟨h4, h4 ▸ h6, bounding_iff.2 h7, fun k hk => (h8 k hk).1, fun k hk => (h8 k hk).2.2.1⟩, ?_⟩
        rcases h5 with ⟨h5, -⟩ | h5
        · rw [h1] at h5; cases h5
        · exact h4 ▸ h5
      · exact (h8 k hk).2.2.2 m hm
    · rintro ⟨h1, h2, h3, h4⟩
      obtain ⟨⟨d1, d2, d3, d4, d5⟩, d6⟩ := h4 _ (List.mem_cons_self ..)
      simp only [Node.count, Node.kids, Node.box] at d1 d2 d3 d4 d5 d6
      refine ⟨⟨⟨⟨⟨⟨⟨h1, h2⟩, ?_⟩, d1⟩, Or.inr (d1 ▸ d6)⟩, d1 ▸ d2⟩, bounding_iff.1 d3⟩, ?_⟩
      · cases pl with
        | false => rfl
        | true => obtain ⟨_, _, _, e⟩ := h3.1 rfl; cases e
      · intro k hk
        refine ⟨d4 k hk, covers_mem d3.1 (List.mem_map.2 ⟨k, hk, rfl⟩), d5 k hk, fun m hm => h4 m ?_⟩
        rw [List.mem_cons, dirsL_eq, List.mem_flatMap]
        exact Or.inr ⟨k, hk, hm⟩
theorem integrityN_all {cfg : Cfg D V} : ∀ (ks : List (Node D V)) (pl : Bool) (pb : Box D),
    (∀ k ∈ ks, integrityN cfg (some (pl, pb)) k = true) ↔ ∀ k ∈ ks, ChildOk cfg pl pb k
  | [], _, _ => by simp
  | k :: ks, pl, pb => by
    simp only [List.forall_mem_cons]
    rw [integrityN_iff k pl pb, integrityN_all ks pl pb]
end

/-- **C64, exactly**: `check_integrity()` returns normally if and only if the tree is in order. -/
theorem C64_check_iff {cfg : Cfg D V} (t : Node D V) : integrityOk cfg t = true ↔ Sound cfg t := by
  cases t with
  | val b p v =>
    simp only [integrityOk, integrityN]
    exact ⟨fun h => (by cases h), fun h => absurd rfl (h.dir b p v)⟩
  | dir l b p c v ks =>
    simp only [integrityOk, integrityN, Bool.and_eq_true, decide_eq_true_eq, Bool.or_eq_true, integrityL_iff, integrityN_all]
    constructor
    · rintro ⟨⟨⟨⟨⟨h1, h4⟩, h5⟩, h6⟩, h7⟩, h8⟩
      refine ⟨h1, by intros; simp, ?_, ?_, ?_⟩
      · intro m hm
        rw [RTree.dirs, List.mem_cons, dirsL_eq, List.mem_flatMap] at hm
        rcases hm with rfl | ⟨k, hk, hm⟩
        · exact ⟨h4, h4 ▸ h6, bounding_iff.2 h7, fun k hk => (h8 k hk).1, fun k hk => (h8 k hk).2.2.1⟩
        · exact ((h8 k hk).2.2.2 m hm).1
      · intro m hm
        rw [dirsL_eq, List.mem_flatMap] at hm
        obtain ⟨k, hk, hm⟩ := hm
        exact ((h8 k hk).2.2.2 m hm).2
      · rcases h5 with ⟨-, h5⟩ | h5
        · exact Or.inl h5
        · exact Or.inr (h4 ▸ h5)
    · rintro ⟨h1, -, h3, h4, h5⟩
      obtain ⟨d1, d2, d3, d4, d5⟩ := h3 _ (List.mem_cons_self ..)
      simp only [Node.count, Node.kids, Node.box, Node.par, Node.isLeaf] at d1 d2 d3 d4 d5 h1 h4 h5
      refine ⟨⟨⟨⟨⟨h1, d1⟩, ?_⟩, d1 ▸ d2⟩, bounding_iff.1 d3⟩, ?_⟩
      · rcases h5 with h5 | h5
        · exact Or.inl ⟨h1, h5⟩
        · exact Or.inr (d1 ▸ h5)
      · intro k hk
        refine ⟨d4 k hk, covers_mem d3.1 (List.mem_map.2 ⟨k, hk, rfl⟩), d5 k hk, fun m hm => ⟨h3 m ?_, h4 m ?_⟩⟩
        · rw [RTree.dirs, List.mem_cons, dirsL_eq, List.mem_flatMap]
          exact Or.inr ⟨k, hk, hm⟩
        · rw [dirsL_eq, List.mem_flatMap]
          exact ⟨k, hk, hm⟩

/-! ### Searching a tree that passed -/

/-- Every directory's box covers its children. -/
def Covering (n : Node D V) : Prop := ∀ m ∈ dirs n, Covers m.box (m.kids.map Node.box)

theorem Covering.kid {l b p c v} {ks : List (Node D V)} (h : Covering (.dir l b p c v ks)) {k : Node D V} (hk : k ∈ ks) :
    Covering k := fun m hm => h m (by
      rw [RTree.dirs, List.mem_cons, dirsL_eq, List.mem_flatMap]
      exact Or.inr ⟨k, hk, hm⟩)

mutual
theorem Covering.entries : ∀ (n : Node D V), Covering n → ∀ e ∈ n.entries, Covers n.box [e.1]
  | .val b p v, _, e, he => by
    simp only [Node.entries, List.mem_singleton] at he
    subst he
    intro c hc i
    rw [List.mem_singleton] at hc; subst hc
    exact ⟨Int.le_refl _, Int.le_refl _⟩
  | .dir l b p c v ks, h, e, he => by
    simp only [Node.entries] at he
    obtain ⟨k, hk, hc⟩ := Covering.entriesL ks (fun k hk => h.kid hk) e he
    exact covers_trans (covers_mem (h _ (List.mem_cons_self ..)) (List.mem_map.2 ⟨k, hk, rfl⟩)) hc
theorem Covering.entriesL : ∀ (ks : List (Node D V)), (∀ k ∈ ks, Covering k) → ∀ e ∈ entriesL ks, ∃ k ∈ ks, Covers k.box [e.1]
  | [], _, e, he => by simp [Node.entriesL] at he
  | k :: ks, h, e, he => by
    simp only [Node.entriesL, List.mem_append] at he
    rcases he with he | he
    · exact ⟨k, by simp, Covering.entries k (h k (by simp)) e he⟩
    · obtain ⟨k', hk', hc⟩ := Covering.entriesL ks (fun k hk => h k (by simp [hk])) e he
      exact ⟨k', by simp [hk'], hc⟩
end

mutual
theorem Covering.searchN (dc vc : Box D → Bool) (hmono : ∀ b c, Covers b [c] → c.Valid → vc c = true → dc b = true) :
    ∀ (n : Node D V) (depth : Nat) (path : List Nat), Covering n → (∀ e ∈ n.entries, e.1.Valid) →
    (RTree.searchN dc vc depth path n).map (fun x => (x.box, x.v)) = n.entries.filter fun e => vc e.1
  | .val b p v, _, _, _, _ => by
    by_cases hv : vc b = true
    · simp [RTree.searchN, Node.entries, hv]
    · simp [RTree.searchN, Node.entries, hv]
  | .dir l b p c v ks, depth, path, h, hv => by
    simp only [RTree.searchN, Node.entries] at hv ⊢
    split
    · exact Covering.searchL dc vc hmono ks (depth + 1) path 0 (fun k hk => h.kid hk) hv
    · rename_i hb
      rw [List.map_nil, eq_comm, List.filter_eq_nil_iff]
      intro e he hvc
      exact hb (hmono _ _ (Covering.entries (.dir l b p c v ks) h e (by simpa [Node.entries] using he)) (hv e he) hvc)
theorem Covering.searchL (dc vc : Box D → Bool) (hmono : ∀ b c, Covers b [c] → c.Valid → vc c = true → dc b = true) :
    ∀ (ks : List (Node D V)) (depth : Nat) (path : List Nat) (i : Nat), (∀ k ∈ ks, Covering k) → (∀ e ∈ Node.entriesL ks, e.1.Valid) →
    (RTree.searchL dc vc depth path i ks).map (fun x => (x.box, x.v)) = (Node.entriesL ks).filter fun e => vc e.1
  | [], _, _, _, _, _ => rfl
  | k :: ks, depth, path, i, h, hv => by
    simp only [Node.entriesL, List.mem_append] at hv
    simp only [RTree.searchL, Node.entriesL, List.map_append, List.filter_append]
    rw [Covering.searchN dc vc hmono k depth _ (h k (by simp)) (fun e he => hv e (Or.inl he)),
      Covering.searchL dc vc hmono ks depth path (i + 1) (fun k hk => h k (by simp [hk])) (fun e he => hv e (Or.inr he))]
end

open Classical in
theorem Covering.exact {t : Node D V} (hc : Covering t) (hv : ∀ e ∈ t.entries, e.1.Valid) {dc vc : Box D → Bool} {P : Box D → Prop}
    (hmono : ∀ b c, Covers b [c] → c.Valid → vc c = true → dc b = true) (hP : ∀ b, b.Valid → (vc b = true ↔ P b)) :
    Exact t t.entries P (RTree.searchN dc vc 0 [] t) := by
  refine ⟨?_, searchN_nodup dc vc t 0 [], ?_⟩
  · rw [Covering.searchN dc vc hmono t 0 [] hc hv]
    refine List.Perm.of_eq (List.filter_congr fun e he => ?_)
    have := hP e.1 (hv e he)
    by_cases h : vc e.1 = true
    · simp [h, this.1 h]
    · have h2 : ¬ P e.1 := fun h' => h (this.2 h')
      simp [h, h2]
  · intro x hx
    obtain ⟨r, h1, h2, h3, -⟩ := searchN_at dc vc t 0 [] x hx
    simp only [List.nil_append] at h1
    subst h1
    exact ⟨h3, by omega⟩

theorem Sound.covering {cfg : Cfg D V} {t : Node D V} (h : Sound cfg t) : Covering t := fun m hm => (h.dirs m hm).box.1

/-- **C64**: on a tree that passed the check, whatever its history, all four searches are exact: they report the stored
entries that match, each once. -/
theorem C64_passed_searches {cfg : Cfg D V} {t : Node D V} (h : integrityOk cfg t = true) (hv : ∀ e ∈ t.entries, e.1.Valid) :
    (∀ p, Exact t t.entries (Inside p) (searchPt t p .overlap)) ∧
    (∀ p, Exact t t.entries (fun b => b = ⟨p, p⟩) (searchPt t p .match_)) ∧
    (∀ q : Box D, q.Valid → Exact t t.entries (Overlap q) (searchBox t q .overlap)) ∧
    (∀ q, Exact t t.entries (fun b => b = q) (searchBox t q .match_)) := by
  have hc := ((C64_check_iff t).1 h).covering
  refine ⟨fun p => ?_, fun p => ?_, fun q hq => ?_, fun q => ?_⟩
  · refine hc.exact hv ?_ (fun b _ => containsPt_iff b p)
    intro b c hc _ hv
    exact (containsPt_iff b p).2 (inside_mono hc ((containsPt_iff c p).1 hv))
  · refine hc.exact hv ?_ ?_
    · intro b c hc _ hv
      simp only [Bool.and_eq_true, decide_eq_true_eq] at hv
      refine (containsPt_iff b p).2 (inside_mono hc ?_)
      intro i
      rw [hv.1, hv.2]; exact ⟨Int.le_refl _, Int.le_refl _⟩
    · intro b _
      obtain ⟨s, e⟩ := b
      simp
  · refine hc.exact hv ?_ (fun b hb => intersects_overlap hq hb)
    intro b c hc hv hi
    exact intersects_mono hv hc hi
  · refine hc.exact hv ?_ (fun b _ => by simp)
    intro b c hc _ hv
    simp only [decide_eq_true_eq] at hv
    subst hv
    exact (contains_iff b c).2 hc

/-- So a tree in which a search goes wrong is caught. -/
theorem C64_wrong_search_caught {cfg : Cfg D V} {t : Node D V} (hv : ∀ e ∈ t.entries, e.1.Valid) {q : Box D} (hq : q.Valid)
    (h : ¬ Exact t t.entries (Overlap q) (searchBox t q .overlap)) : integrityOk cfg t = false := by
  cases e : integrityOk cfg t with
  | false => rfl
  | true => exact absurd ((C64_passed_searches e hv).2.2.1 q hq) h

/-- The theorems apply to a tree of several directories, and the broken tree of `C50_search_fails` is caught. -/
example : okAnd (runOps (demoCfg 2 6 2 true) empty sample) (fun t => integrityOk (demoCfg 2 6 2 true) t && decide (3 < (dirs t).length) &&
      decide (∀ e ∈ t.entries, ∀ i, e.1.s.get i ≤ e.1.e.get i)) = true ∧
    okAnd (bulkLoad (demoCfg 2 4 2 false) lostBulk) (fun t0 => okAnd (runOps (demoCfg 2 4 2 false) t0
      ((scatter 23).drop 5 ++ [.insert (px 50 (-5)) 1000])) (fun t => ! integrityOk (demoCfg 2 4 2 false) t)) = true := by
  decide +kernel

/-- **What the check does not see (1)**: that a tree that passes is fit for further use.  A bulk-loaded tree passes; the
flag that says whether parent pointers are current is not among the things looked at, and insertions then lose an
entry. -/
theorem C64_fit_for_insertion_fails : ∃ (cfg : Cfg 2 Nat) (t0 t : Node 2 Nat) (ops : List (Op 2 Nat)) (q : Box 2), cfg.Ok ∧
    integrityOk cfg t0 = true ∧ runOps cfg t0 ops = .ok t ∧ (∀ o ∈ ops, ∃ b v, o = .insert b v ∧ b.Valid) ∧ q.Valid ∧
    (q, 1000) ∈ t.entries ∧ searchBox t q .overlap = [] := by
  let cfg := demoCfg 2 4 2 false
  let ops : List (Op 2 Nat) := (scatter 23).drop 5 ++ [.insert (px 50 (-5)) 1000]
  have key : okAnd (bulkLoad cfg lostBulk) (fun t0 => integrityOk cfg t0 && okAnd (runOps cfg t0 ops) (fun t =>
      decide ((px 50 (-5), 1000) ∈ t.entries) && decide (searchBox t (px 50 (-5)) .overlap = []))) = true := by
    decide +kernel
  obtain ⟨t0, h0, h1⟩ := okAnd_iff.1 key
  rw [Bool.and_eq_true] at h1
  obtain ⟨t, h2, h3⟩ := okAnd_iff.1 h1.2
  simp only [Bool.and_eq_true, decide_eq_true_eq] at h3
  have hp : ∀ a b, (px a b).Valid := fun a b i => Int.le_refl _
  refine ⟨cfg, t0, t, ops, px 50 (-5), ⟨by decide, by decide, by decide, by decide, by decide⟩, h1.1, h2, ?_, hp _ _, h3.1, h3.2⟩
  intro o ho
  simp only [ops, List.mem_append, List.mem_singleton] at ho
  rcases ho with ho | rfl
  · have := List.mem_of_mem_drop ho
    simp only [scatter, List.mem_map] at this
    obtain ⟨i, _, rfl⟩ := this
    exact ⟨_, _, rfl, hp _ _⟩
  · exact ⟨_, _, rfl, hp _ _⟩

end Mdds.RTree
