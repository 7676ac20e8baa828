import Verif.RTree.Reach
import Verif.RTree.Demo
/-!
Properties C50–C55 of `mdds::rtree`.

`Reach S cfg t l` (`Reach.lean`) says: the tree `t` results from a history of public calls after which
the program has stored exactly the entries of the list `l`.  The histories cover construction, bulk
loading, insertion, erasure, copying, moving and clearing, with two restrictions on calls that the
code gets wrong otherwise (`roomy`, `mild`; see the `_fails` theorems).
-/
namespace Mdds.RTree

open Node

variable {D : Nat} {V : Type}

/-! ### runs, for the examples -/

/-- Whether a call is one the theorems cover, in the strict sense. -/
def covered (cfg : Cfg D V) (t : Node D V) : Op D V → Bool
  | .insert b _ => roomy cfg t && (axes D).all fun i => decide (b.s.get i ≤ b.e.get i)
  | .erase q k =>
    match (searchBox t q .overlap)[k]? with
    | some x => mildTight cfg t x.path &&
        (keeps cfg t x.path || (decide (2 ≤ cfg.minSize) && decide (size t < cfg.minSize ^ (cfg.maxDepth + 1))))
    | none => true
  | .copy => true
  | .move => true

/-- Whether every call of a run is covered. -/
def coveredRun (cfg : Cfg D V) : Node D V → List (Op D V) → Bool
  | _, [] => true
  | t, o :: os => covered cfg t o &&
    match o.run cfg t with
    | .ok t' => coveredRun cfg t' os
    | .error _ => false

/-- A covered run is a history in the sense of `Reach`. -/
theorem reach_run {cfg : Cfg D V} (hc : cfg.Ok) : ∀ (ops : List (Op D V)) {t : Node D V} {l : List (Box D × V)},
    Reach (strict cfg) cfg t l → coveredRun cfg t ops = true →
    ∃ t' l', runOps cfg t ops = .ok t' ∧ Reach (strict cfg) cfg t' l' := by
  intro ops
  induction ops with
  | nil => intro t l hr _; exact ⟨t, l, rfl, hr⟩
  | cons o os ih =>
    intro t l hr hcov
    simp only [coveredRun, Bool.and_eq_true] at hcov
    obtain ⟨h1, h2⟩ := hcov
    split at h2
    · rename_i t' e
      suffices ∃ l', Reach (strict cfg) cfg t' l' by
        obtain ⟨l', hr'⟩ := this
        obtain ⟨t2, l2, e2, hr2⟩ := ih hr' h2
        exact ⟨t2, l2, by simp only [runOps, e]; exact e2, hr2⟩
      cases o with
      | insert b v =>
        simp only [covered, Bool.and_eq_true, List.all_eq_true, decide_eq_true_eq] at h1
        exact ⟨_, .insert hr (fun i => h1.2 i (mem_axes i)) h1.1 e⟩
      | erase q k =>
        simp only [Op.run] at e
        simp only [covered] at h1
        split at e
        · rename_i x hx
          simp only [hx, Bool.and_eq_true, Bool.or_eq_true, decide_eq_true_eq] at h1
          obtain ⟨r, e1, -, a1, -⟩ := searchN_at _ _ t 0 [] x (List.mem_of_getElem? hx)
          simp only [List.nil_append] at e1
          subst e1
          have hm : mild cfg t x.path = true := by
            have := h1.1; simp only [mildTight, Bool.and_eq_true] at this; exact this.1
          obtain ⟨h, hw, hp⟩ := reach_wf (good_strict hc) hr
          have hk : keeps cfg t x.path = true ∨ (2 ≤ (strict cfg).lo ∧ (strict cfg).rlo = 2 ∧
              l.length < (strict cfg).lo ^ (cfg.maxDepth + 1)) := by
            rcases h1.2 with h3 | ⟨h3, h4⟩
            · exact Or.inl h3
            · exact Or.inr ⟨h3, rfl, by rw [← hp.length_eq]; exact h4⟩
          obtain ⟨t2, h2', e2, w2, p2⟩ := erase_ok (good_strict hc) hw a1 hm (fun _ => h1.1)
            (by rw [hp.length_eq]; exact hk)
          have : t2 = t' := by rw [e2] at e; cases e; rfl
          subst this
          exact ⟨_, .erase hr a1 hm (fun _ => h1.1) hk e (hp.symm.trans p2)⟩
        · cases e; exact ⟨l, hr⟩
      | copy => cases e; exact ⟨l, .copy hr⟩
      | move => cases e; exact ⟨l, .move hr⟩
    · simp at h2

/-- A history with splits on two levels, erasures that dissolve directories, a copy and a move, all
covered. -/
def sample : List (Op 2 Nat) :=
  scatter 14 ++ [.erase area 3, .erase area 0, .copy, .erase area 5, .erase (px 37 53) 0, .move,
    .insert (bx 3 4 60 61) 100, .insert (bx (-5) 0 2 8) 101]

theorem sample_ok : ∃ t l, runOps (demoCfg 2 6 2 true) empty sample = .ok t ∧
    Reach (strict (demoCfg 2 6 2 true)) (demoCfg 2 6 2 true) t l :=
  reach_run ⟨by decide, by decide, by decide, by decide, by decide⟩ sample .empty (by decide +kernel)

/-! ### C50: search -/

/-- `search(point, overlap)` returns exactly the stored entries whose extent contains the point. -/
theorem C50_search_point_overlap_partial {S : Shape} {cfg : Cfg D V} (hg : Good S cfg) {t : Node D V}
    {l : List (Box D × V)} (hr : Reach S cfg t l) (p : Pt D) :
    Exact t l (Inside p) (searchPt t p .overlap) := by
  obtain ⟨h, hw, hp⟩ := reach_wf hg hr
  refine exact_of hw hp ?_ (fun b _ => containsPt_iff b p)
  intro b c hc _ hv
  exact (containsPt_iff b p).2 (inside_mono hc ((containsPt_iff c p).1 hv))

/-- `search(point, match)` returns exactly the stored entries whose extent is that point. -/
theorem C50_search_point_match_partial {S : Shape} {cfg : Cfg D V} (hg : Good S cfg) {t : Node D V}
    {l : List (Box D × V)} (hr : Reach S cfg t l) (p : Pt D) :
    Exact t l (fun b => b = ⟨p, p⟩) (searchPt t p .match_) := by
  obtain ⟨h, hw, hp⟩ := reach_wf hg hr
  refine exact_of hw hp ?_ ?_
  · intro b c hc _ hv
    simp only [Bool.and_eq_true, decide_eq_true_eq] at hv
    refine (containsPt_iff b p).2 (inside_mono hc ?_)
    intro i
    rw [hv.1, hv.2]; exact ⟨Int.le_refl _, Int.le_refl _⟩
  · intro b _
    obtain ⟨s, e⟩ := b
    simp

/-- `search(extent, overlap)` returns exactly the stored entries whose extent shares a point with
the query. -/
theorem C50_search_extent_overlap_partial {S : Shape} {cfg : Cfg D V} (hg : Good S cfg) {t : Node D V}
    {l : List (Box D × V)} (hr : Reach S cfg t l) {q : Box D} (hq : q.Valid) :
    Exact t l (Overlap q) (searchBox t q .overlap) := by
  obtain ⟨h, hw, hp⟩ := reach_wf hg hr
  refine exact_of hw hp ?_ (fun b hb => intersects_overlap hq hb)
  intro b c hc hv hi
  exact intersects_mono hv hc hi

/-- `search(extent, match)` returns exactly the stored entries with that extent. -/
theorem C50_search_extent_match_partial {S : Shape} {cfg : Cfg D V} (hg : Good S cfg) {t : Node D V}
    {l : List (Box D × V)} (hr : Reach S cfg t l) (q : Box D) :
    Exact t l (fun b => b = q) (searchBox t q .match_) := by
  obtain ⟨h, hw, hp⟩ := reach_wf hg hr
  refine exact_of hw hp ?_ (fun b _ => by simp)
  intro b c hc _ hv
  simp only [decide_eq_true_eq] at hv
  subst hv
  exact (contains_iff b c).2 hc

/-- Every stored entry has a position, which the searches report. -/
theorem C50_every_entry_has_a_position_partial {S : Shape} {cfg : Cfg D V} (hg : Good S cfg) {t : Node D V}
    {l : List (Box D × V)} (hr : Reach S cfg t l) {b : Box D} {v : V} (hb : (b, v) ∈ l) :
    ∃ x ∈ searchBox t b .match_, x.box = b ∧ x.v = v ∧ At t x.path b v := by
  have hx := C50_search_extent_match_partial hg hr b
  have : (b, v) ∈ (searchBox t b .match_).map fun x => (x.box, x.v) :=
    hx.contents.mem_iff.2 (List.mem_filter.2 ⟨hb, by simp⟩)
  obtain ⟨x, h1, h2⟩ := List.mem_map.1 this
  cases h2
  exact ⟨x, h1, rfl, rfl, (hx.places x h1).1⟩

/-- The searches on the sample history return some but not all entries, through several directories. -/
example : ∃ t l, Reach (strict (demoCfg 2 6 2 true)) (demoCfg 2 6 2 true) t l ∧ size t = 12 ∧
    3 < (dirs t).length ∧ (searchBox t (bx 0 0 50 50) .overlap).length = 4 ∧
    (searchPt t ⟨[37, 53], rfl⟩ .overlap).length = 1 ∧ (searchPt t ⟨[37, 53], rfl⟩ .match_).length = 0 ∧
    (searchBox t (bx 3 4 60 61) .match_).map Hit.v = [100] := by
  obtain ⟨t, l, e, hr⟩ := sample_ok
  have key : okAnd (runOps (demoCfg 2 6 2 true) empty sample) (fun t => decide (size t = 12 ∧
    3 < (dirs t).length ∧ (searchBox t (bx 0 0 50 50) .overlap).length = 4 ∧
    (searchPt t ⟨[37, 53], rfl⟩ .overlap).length = 1 ∧ (searchPt t ⟨[37, 53], rfl⟩ .match_).length = 0 ∧
    (searchBox t (bx 3 4 60 61) .match_).map Hit.v = [100])) = true := by decide +kernel
  rw [e] at key
  exact ⟨t, l, hr, of_decide_eq_true key⟩

/-- The list of bulk-loaded points of the witness below. -/
def lostBulk : List (Box 2 × Nat) :=
  (List.range 5).map fun i => (px ((i * 37 % 101 : Nat) : Int) ((i * 53 % 97 : Nat) : Int), i)

/-- C50 fails for trees that are bulk loaded (or copied, moved, swapped) and then grown until the
root splits: an entry is stored, and a search at its own position does not find it. -/
theorem C50_search_fails : ∃ (cfg : Cfg 2 Nat) (vals : List (Box 2 × Nat)) (ops : List (Op 2 Nat))
    (t0 t : Node 2 Nat) (q : Box 2), cfg.Ok ∧ (∀ x ∈ vals, x.1.Valid) ∧ q.Valid ∧
    bulkLoad cfg vals = .ok t0 ∧ runOps cfg t0 ops = .ok t ∧
    (∀ o ∈ ops, ∃ b v, o = .insert b v ∧ b.Valid) ∧
    (q, 1000) ∈ t.entries ∧ searchBox t q .overlap = [] := by
  let cfg := demoCfg 2 4 2 false
  let ops : List (Op 2 Nat) := (scatter 23).drop 5 ++ [.insert (px 50 (-5)) 1000]
  have key : okAnd (bulkLoad cfg lostBulk) (fun t0 => okAnd (runOps cfg t0 ops) (fun t =>
      decide ((px 50 (-5), 1000) ∈ t.entries) && decide (searchBox t (px 50 (-5)) .overlap = []))) = true := by
    decide +kernel
  obtain ⟨t0, h0, h1⟩ := okAnd_iff.1 key
  obtain ⟨t, h2, h3⟩ := okAnd_iff.1 h1
  simp only [Bool.and_eq_true, decide_eq_true_eq] at h3
  have hp : ∀ a b, (px a b).Valid := fun a b i => Int.le_refl _
  refine ⟨cfg, lostBulk, ops, t0, t, px 50 (-5), ⟨by decide, by decide, by decide, by decide, by decide⟩,
    ?_, hp _ _, h0, h2, ?_, h3.1, h3.2⟩
  · intro x hx
    simp only [lostBulk, List.mem_map] at hx
    obtain ⟨i, _, rfl⟩ := hx
    exact hp _ _
  · intro o ho
    simp only [ops, List.mem_append, List.mem_singleton] at ho
    rcases ho with ho | rfl
    · have := List.mem_of_mem_drop ho
      simp only [scatter, List.mem_map] at this
      obtain ⟨i, _, rfl⟩ := this
      exact ⟨_, _, rfl, hp _ _⟩
    · exact ⟨_, _, rfl, hp _ _⟩

/-! ### C51: insertion -/

/-- One insertion into a reachable tree adds exactly the given entry and `size()` grows by one, or the
tree is deeper than `max_tree_depth` allows; no other outcome (in particular no pointer that must not
be followed) is possible. -/
theorem C51_insert_partial {S : Shape} {cfg : Cfg D V} (hg : Good S cfg) {t : Node D V}
    {l : List (Box D × V)} (hr : Reach S cfg t l) {b : Box D} (hb : b.Valid) (v : V) (hroom : roomy cfg t = true) :
    (∃ t', insert cfg t b v = .ok t' ∧ Reach S cfg t' ((b, v) :: l) ∧
      t'.entries.Perm ((b, v) :: t.entries) ∧ size t' = size t + 1) ∨
    (insert cfg t b v = .error .maxDepth ∧ S.rlo * S.lo ^ (cfg.maxDepth + 1) ≤ l.length) := by
  obtain ⟨h, hw, hp⟩ := reach_wf hg hr
  rcases insert_ok hg b v hb hw (roomy_iff hg hroom) with ⟨t', h', e, w, p, -⟩ | ⟨e, hd⟩
  · exact Or.inl ⟨t', e, .insert hr hb hroom e, p, by simpa [size] using p.length_eq⟩
  · refine Or.inr ⟨e, ?_⟩
    have := hd.bound hg.lo1
    rwa [hp.length_eq] at this

/-- Insert a list of entries, one after the other. -/
def insertAll (cfg : Cfg D V) : Node D V → List (Box D × V) → Except Fault (Node D V)
  | t, [] => .ok t
  | t, e :: es =>
    match insert cfg t e.1 e.2 with
    | .ok t' => insertAll cfg t' es
    | .error e => .error e

theorem insertAll_reach {cfg : Cfg D V} (hc : cfg.Ok) : ∀ (es : List (Box D × V)) {t : Node D V}
    {l : List (Box D × V)}, Reach (strict cfg) cfg t l → t.valid = false → (∀ e ∈ es, e.1.Valid) →
    l.length + es.length ≤ 2 * cfg.minSize ^ (cfg.maxDepth + 1) →
    ∃ t', insertAll cfg t es = .ok t' ∧ Reach (strict cfg) cfg t' (es.reverse ++ l) := by
  intro es
  induction es with
  | nil => intro t l hr _ _ _; exact ⟨t, rfl, hr⟩
  | cons e es ih =>
    intro t l hr hv hes hlen
    obtain ⟨h, hw, hp⟩ := reach_wf (good_strict hc) hr
    have hroom : roomy cfg t = true := by simp [roomy, hv]
    rcases insert_ok (good_strict hc) e.1 e.2 (hes e (by simp)) hw (Or.inl hv) with ⟨t', h', e1, w, p, hval, -⟩ | ⟨e1, hd⟩
    · obtain ⟨t'', e2, hr2⟩ := ih (.insert hr (hes e (by simp)) hroom e1) (hval hv)
        (fun x hx => hes x (by simp [hx])) (by simp at hlen ⊢; omega)
      refine ⟨t'', by simp only [insertAll, e1, e2], ?_⟩
      simpa using hr2
    · exfalso
      have := hd.bound (good_strict hc).lo1
      rw [hp.length_eq] at this
      simp only [strict] at this
      simp at hlen
      omega

/-- Any number of insertions into an empty tree (up to `2 * min_node_size ^ (max_tree_depth + 1)`,
which the depth limit makes necessary) succeeds and stores exactly the inserted entries: for every
order, every capacity configuration and with or without forced reinsertion. -/
theorem C51_insertion_histories {cfg : Cfg D V} (hc : cfg.Ok) (es : List (Box D × V))
    (hv : ∀ e ∈ es, e.1.Valid) (hlen : es.length ≤ 2 * cfg.minSize ^ (cfg.maxDepth + 1)) :
    ∃ t, insertAll cfg empty es = .ok t ∧ t.entries.Perm es ∧ size t = es.length ∧
      Reach (strict cfg) cfg t es.reverse := by
  obtain ⟨t, e, hr⟩ := insertAll_reach hc es .empty rfl hv (by simpa using hlen)
  rw [List.append_nil] at hr
  obtain ⟨h, hw, hp⟩ := reach_wf (good_strict hc) hr
  have hp := hp.trans (List.reverse_perm es)
  exact ⟨t, e, hp, hp.length_eq, hr⟩

/-- Twenty insertions, with splits on two levels and forced reinsertions. -/
example : okAnd (insertAll (demoCfg 2 4 2 true) empty
      ((List.range 20).map fun i => (px ((i * 37 % 101 : Nat) : Int) ((i * 53 % 97 : Nat) : Int), i)))
    (fun t => decide (size t = 20 ∧ 8 < (dirs t).length ∧ (dirs t).any (fun m => ! m.isLeaf && decide (m.par = .right)) = true)) = true := by
  decide +kernel

example : (demoCfg 2 4 2 true).Ok := ⟨by decide, by decide, by decide, by decide, by decide⟩

/-- The theorems hold for every arithmetic.  Here twenty insertions with one-byte keys: the areas wrap around, the
insertions make other choices than with exact areas, and the tree is sound all the same. -/
example : calcArea (.modulo 256) (bx 0 0 100 90) = 40 ∧
    okAnd (insertAll (byteCfg 2 4 2 true) empty
      ((List.range 20).map fun i => (px ((i * 37 % 101 : Nat) : Int) ((i * 53 % 97 : Nat) : Int), i)))
    (fun t => integrityOk (byteCfg 2 4 2 true) t && decide (size t = 20) &&
      okAnd (insertAll (demoCfg 2 4 2 true) empty
        ((List.range 20).map fun i => (px ((i * 37 % 101 : Nat) : Int) ((i * 53 % 97 : Nat) : Int), i)))
      (fun t' => decide (t.entries ≠ t'.entries))) = true := by
  decide +kernel

/-! ### C52: erasure -/

/-- Erasing a position of a reachable tree removes exactly the entry it designates and keeps all
others; `size()` drops by one. -/
theorem C52_erase_partial {S : Shape} {cfg : Cfg D V} (hg : Good S cfg) {t : Node D V}
    {l : List (Box D × V)} (hr : Reach S cfg t l) {path : List Nat} {b : Box D} {v : V} (hat : At t path b v)
    (hm : mild cfg t path = true) (ht : S.tight → mildTight cfg t path = true)
    (hk : keeps cfg t path = true ∨ (2 ≤ S.lo ∧ S.rlo = 2 ∧ l.length < S.lo ^ (cfg.maxDepth + 1))) :
    ∃ t' l', eraseAt cfg t path = .ok t' ∧ l.Perm ((b, v) :: l') ∧ Reach S cfg t' l' ∧
      t.entries.Perm ((b, v) :: t'.entries) ∧ size t = size t' + 1 := by
  obtain ⟨h, hw, hp⟩ := reach_wf hg hr
  obtain ⟨t', h', e, w, p⟩ := erase_ok hg hw hat hm ht (by rw [hp.length_eq]; exact hk)
  have hl : l.Perm ((b, v) :: t'.entries) := hp.symm.trans p
  exact ⟨t', t'.entries, e, hl, .erase hr hat hm ht hk e hl, p, by simpa [size] using p.length_eq⟩

/-- The sample history erases four entries; two of the erasures dissolve a directory.  Here is one more
that does, with its hypotheses. -/
example : ∃ t l path, Reach (strict (demoCfg 2 6 2 true)) (demoCfg 2 6 2 true) t l ∧
    (∃ b v, At t path b v) ∧ mildTight (demoCfg 2 6 2 true) t path = true ∧
    keeps (demoCfg 2 6 2 true) t path = false ∧ size t < 2 ^ 101 := by
  obtain ⟨t, l, e, hr⟩ := reach_run (cfg := demoCfg 2 6 2 true) ⟨by decide, by decide, by decide, by decide, by decide⟩
    (scatter 14) .empty (by decide +kernel)
  have key : okAnd (runOps (demoCfg 2 6 2 true) empty (scatter 14)) (fun t =>
      match (searchBox t area .overlap)[0]? with
      | some x => mildTight (demoCfg 2 6 2 true) t x.path && ! keeps (demoCfg 2 6 2 true) t x.path &&
          decide (size t < 2 ^ 101)
      | none => false) = true := by decide +kernel
  rw [e] at key
  simp only [okAnd] at key
  split at key
  · rename_i x hx
    obtain ⟨r, e1, -, a1, -⟩ := searchN_at _ _ t 0 [] x (List.mem_of_getElem? hx)
    simp only [List.nil_append] at e1
    subst e1
    simp only [Bool.and_eq_true, Bool.not_eq_true', decide_eq_true_eq] at key
    exact ⟨t, l, x.path, hr, ⟨_, _, a1⟩, key.1.1, key.1.2, key.2⟩
  · simp at key

/-- C52 fails for a copied tree whose root has split since: erasing a position that a search has just
returned removes nothing. -/
theorem C52_erase_fails : ∃ (cfg : Cfg 2 Nat) (ops : List (Op 2 Nat)) (t t' : Node 2 Nat) (x : Hit 2 Nat),
    cfg.Ok ∧ runOps cfg empty ops = .ok t ∧ x ∈ searchBox t area .overlap ∧
    eraseAt cfg t x.path = .ok t' ∧ size t' = size t := by
  let cfg := demoCfg 2 5 2 true
  let ops : List (Op 2 Nat) := scatter 4 ++ [.copy] ++ (scatter 10).drop 4
  have key : okAnd (runOps cfg empty ops) (fun t =>
      match (searchBox t area .overlap)[0]? with
      | some x => okAnd (eraseAt cfg t x.path) (fun t' => decide (size t' = size t))
      | none => false) = true := by decide +kernel
  obtain ⟨t, h0, h1⟩ := okAnd_iff.1 key
  split at h1
  · rename_i x hx
    obtain ⟨t', h2, h3⟩ := okAnd_iff.1 h1
    exact ⟨cfg, ops, t, t', x, ⟨by decide, by decide, by decide, by decide, by decide⟩, h0,
      List.mem_of_getElem? hx, h2, by simpa using h3⟩
  · simp at h1

/-- C52 fails for a tree built by insertions and erasures alone: after some erasures that dissolve
directories, erasing a position that a search has just returned follows a dangling pointer. -/
theorem C52_erase_dangling_fails : ∃ (cfg : Cfg 2 Nat) (ops : List (Op 2 Nat)) (t : Node 2 Nat) (x : Hit 2 Nat),
    cfg.Ok ∧ (∀ o ∈ ops, (∃ b v, o = .insert b v) ∨ ∃ q k, o = .erase q k) ∧
    runOps cfg empty ops = .ok t ∧ x ∈ searchBox t area .overlap ∧ eraseAt cfg t x.path = .error .staleParent := by
  let cfg := demoCfg 2 4 2 false
  let ops : List (Op 2 Nat) := scatter 30 ++ thin 30 3 16
  have key : okAnd (runOps cfg empty ops) (fun t =>
      match (searchBox t area .overlap)[16 * 3 % (30 - 16)]? with
      | some x =>
        match eraseAt cfg t x.path with
        | .error .staleParent => true
        | _ => false
      | none => false) = true := by decide +kernel
  obtain ⟨t, h0, h1⟩ := okAnd_iff.1 key
  split at h1
  · rename_i x hx
    split at h1
    · rename_i he
      refine ⟨cfg, ops, t, x, ⟨by decide, by decide, by decide, by decide, by decide⟩, ?_, h0,
        List.mem_of_getElem? hx, he⟩
      intro o ho
      simp only [ops, scatter, thin, List.mem_append, List.mem_map] at ho
      rcases ho with ⟨i, _, rfl⟩ | ⟨i, _, rfl⟩
      · exact Or.inl ⟨_, _, rfl⟩
      · exact Or.inr ⟨_, _, rfl⟩
    · simp at h1
  · simp at h1

/-! ### C53: bounding boxes -/

/-- In a tree whose history keeps boxes exact, every directory's box is the exact bounding box of the
entries below it, and `extent()` is the bounding box of everything stored. -/
theorem C53_boxes_exact_partial {S : Shape} {cfg : Cfg D V} (hg : Good S cfg) (hτ : S.tight) {t : Node D V}
    {l : List (Box D × V)} (hr : Reach S cfg t l) :
    Bounding (extent t) (l.map Prod.fst) ∧ ∀ m ∈ dirs t, Bounding m.box (m.entries.map Prod.fst) := by
  obtain ⟨h, hw, hp⟩ := reach_wf hg hr
  have h0 := wfn_bounding hτ hg.lo1 h hw.wfn
  refine ⟨bounding_perm (hp.map _) h0, ?_⟩
  obtain ⟨lf, b, p, c, v, ks, rfl⟩ := wfn_cases hw.wfn
  intro m hm
  simp only [dirs, List.mem_cons] at hm
  rcases hm with rfl | hm
  · exact h0
  · obtain ⟨⟨h', hm'⟩, -⟩ := dirs_wf h hw.wfn m hm
    exact wfn_bounding hτ hg.lo1 h' hm'

/-- The sample history meets the hypotheses: `(strict _).tight` is true, and the tree has several
directories. -/
example : (strict (demoCfg 2 6 2 true)).tight ∧ okAnd (runOps (demoCfg 2 6 2 true) empty sample)
    (fun t => decide (extent t = bx (-5) 0 94 89 ∧ (dirs t).length = 4)) = true :=
  ⟨trivial, by decide +kernel⟩

/-- The statement for every tree built by insertions alone. -/
theorem C53_boxes_exact_insertions {cfg : Cfg D V} (hc : cfg.Ok) {es : List (Box D × V)}
    (hv : ∀ e ∈ es, e.1.Valid) {t : Node D V} (ht : insertAll cfg empty es = .ok t)
    (hlen : es.length ≤ 2 * cfg.minSize ^ (cfg.maxDepth + 1)) :
    Bounding (extent t) (es.map Prod.fst) ∧ ∀ m ∈ dirs t, Bounding m.box (m.entries.map Prod.fst) := by
  obtain ⟨t', e, -, -, hr⟩ := C51_insertion_histories hc es hv hlen
  rw [e] at ht; cases ht
  obtain ⟨h1, h2⟩ := C53_boxes_exact_partial (good_strict hc) trivial hr
  exact ⟨bounding_perm ((List.reverse_perm es).map _) h1, h2⟩

/-- The statement for every bulk-loaded tree. -/
theorem C53_boxes_exact_bulk {cfg : Cfg D V} (hc : cfg.Ok) {vals : List (Box D × V)}
    (hv : ∀ e ∈ vals, e.1.Valid) {t : Node D V} (ht : bulkLoad cfg vals = .ok t) :
    Bounding (extent t) (vals.map Prod.fst) ∧ ∀ m ∈ dirs t, Bounding m.box (m.entries.map Prod.fst) :=
  C53_boxes_exact_partial (good_bulk hc) trivial (.bulk (Nat.le_refl _) hv ht)

/-- When erasures are mild but not tight, directories still cover what lies below them. -/
theorem C53_boxes_cover_partial {S : Shape} {cfg : Cfg D V} (hg : Good S cfg) {t : Node D V}
    {l : List (Box D × V)} (hr : Reach S cfg t l) :
    Covers (extent t) (l.map Prod.fst) ∧ ∀ m ∈ dirs t, Covers m.box (m.entries.map Prod.fst) := by
  obtain ⟨h, hw, hp⟩ := reach_wf hg hr
  have cov : ∀ (h : Nat) {n : Node D V}, WFN S h n → Covers n.box (n.entries.map Prod.fst) := by
    intro h n hn x hx
    obtain ⟨e, he, rfl⟩ := List.mem_map.1 hx
    exact (covers_entries h hn e he).1 e.1 (by simp)
  refine ⟨?_, ?_⟩
  · intro x hx
    exact cov h hw.wfn x ((hp.map _).mem_iff.2 hx)
  · obtain ⟨lf, b, p, c, v, ks, rfl⟩ := wfn_cases hw.wfn
    intro m hm
    simp only [dirs, List.mem_cons] at hm
    rcases hm with rfl | hm
    · exact cov h hw.wfn
    · obtain ⟨⟨h', hm'⟩, -⟩ := dirs_wf h hw.wfn m hm
      exact cov h' hm'

mutual
/-- When every directory covers what lies below it, a search at an entry's own extent is not empty. -/
theorem found_of_covers {q : Box D} {x : V} (hq : q.Valid) : ∀ (n : Node D V) (d : Nat) (path : List Nat),
    (∀ m ∈ dirs n, Covers m.box (m.entries.map Prod.fst)) → (q, x) ∈ n.entries →
    searchN (fun b => intersects q b) (fun b => intersects q b) d path n ≠ []
  | .val b p v, d, path, _, hm => by
    simp only [entries, List.mem_singleton] at hm
    cases hm
    have self : intersects q q = true :=
      (intersects_overlap hq hq).2 ⟨q.s, fun i => ⟨Int.le_refl _, hq i⟩, fun i => ⟨Int.le_refl _, hq i⟩⟩
    simp [searchN, self]
  | .dir l b p c v ks, d, path, hd, hm => by
    have self : intersects q q = true :=
      (intersects_overlap hq hq).2 ⟨q.s, fun i => ⟨Int.le_refl _, hq i⟩, fun i => ⟨Int.le_refl _, hq i⟩⟩
    have hc : Covers b ((entriesL ks).map Prod.fst) := hd (.dir l b p c v ks) (by simp [dirs])
    have : intersects q b = true :=
      intersects_mono hq (covers_mem hc (List.mem_map.2 ⟨(q, x), hm, rfl⟩)) self
    simp only [searchN, this, if_true]
    exact found_of_coversL hq ks _ _ _ (fun m hm => hd m (by simp [dirs, hm])) hm
theorem found_of_coversL {q : Box D} {x : V} (hq : q.Valid) : ∀ (ks : List (Node D V)) (d i : Nat) (path : List Nat),
    (∀ m ∈ dirsL ks, Covers m.box (m.entries.map Prod.fst)) → (q, x) ∈ entriesL ks →
    searchL (fun b => intersects q b) (fun b => intersects q b) d path i ks ≠ []
  | [], _, _, _, _, hm => by simp [entriesL] at hm
  | k :: ks, d, i, path, hd, hm => by
    simp only [entriesL, List.mem_append] at hm
    simp only [searchL, ne_eq, List.append_eq_nil_iff, not_and]
    intro h8 h9
    rcases hm with hm | hm
    · exact found_of_covers hq k _ _ (fun m hm => hd m (by simp [dirsL, hm])) hm h8
    · exact found_of_coversL hq ks _ _ _ (fun m hm => hd m (by simp [dirsL, hm])) hm h9
end

/-- C53 fails for bulk-loaded trees that are then grown until the root splits: some directory's box
does not even cover an entry below it. -/
theorem C53_boxes_fails : ∃ (cfg : Cfg 2 Nat) (vals : List (Box 2 × Nat)) (ops : List (Op 2 Nat))
    (t0 t m : Node 2 Nat), cfg.Ok ∧ (∀ x ∈ vals, x.1.Valid) ∧ bulkLoad cfg vals = .ok t0 ∧
    runOps cfg t0 ops = .ok t ∧ (∀ o ∈ ops, ∃ b v, o = .insert b v ∧ b.Valid) ∧
    m ∈ dirs t ∧ ¬ Covers m.box (m.entries.map Prod.fst) := by
  obtain ⟨cfg, vals, ops, t0, t, q, h1, h2, hq, h3, h4, h5, h6, h7⟩ := C50_search_fails
  have main : ∃ m ∈ dirs t, ¬ Covers m.box (m.entries.map Prod.fst) := by
    by_contra hno
    have hno : ∀ m ∈ dirs t, Covers m.box (m.entries.map Prod.fst) :=
      fun m hm => Classical.byContradiction fun h => hno ⟨m, hm, h⟩
    exact found_of_covers hq t 0 [] hno h6 h7
  obtain ⟨m, hm, hc⟩ := main
  exact ⟨cfg, vals, ops, t0, t, m, h1, h2, h3, h4, h5, hm, hc⟩

/-- After erasures that dissolve a directory below the second level, `extent()` can be larger than the
bounding box of what is stored, in a tree built by insertions and erasures alone. -/
theorem C53_extent_after_erase_fails : ∃ (cfg : Cfg 2 Nat) (ops : List (Op 2 Nat)) (t : Node 2 Nat),
    cfg.Ok ∧ (∀ o ∈ ops, (∃ b v, o = .insert b v) ∨ ∃ q k, o = .erase q k) ∧
    runOps cfg empty ops = .ok t ∧ ¬ Bounding (extent t) (t.entries.map Prod.fst) := by
  let cfg := demoCfg 2 4 2 false
  let ops : List (Op 2 Nat) := scatter 17 ++ thin 17 5 6
  have key : okAnd (runOps cfg empty ops) (fun t => decide (¬ ext (t.entries.map Prod.fst) = extent t)) = true := by
    decide +kernel
  obtain ⟨t, h0, h1⟩ := okAnd_iff.1 key
  refine ⟨cfg, ops, t, ⟨by decide, by decide, by decide, by decide, by decide⟩, ?_, h0, ?_⟩
  · intro o ho
    simp only [ops, scatter, thin, List.mem_append, List.mem_map] at ho
    rcases ho with ⟨i, _, rfl⟩ | ⟨i, _, rfl⟩
    · exact Or.inl ⟨_, _, rfl⟩
    · exact Or.inr ⟨_, _, rfl⟩
  · rw [bounding_iff]; simpa using h1

/-! ### C54: occupancy and depth -/

/-- Occupancy and depth of a reachable tree: every directory records its number of children, which
is at most the capacity; every directory except the root has at least the minimum; a root that is not
a leaf has at least two children (when the history guarantees that); all values sit at the same depth. -/
theorem C54_shape_partial {S : Shape} {cfg : Cfg D V} (hg : Good S cfg) {t : Node D V}
    {l : List (Box D × V)} (hr : Reach S cfg t l) :
    (∀ m ∈ dirs t, m.count = m.kids.length ∧ m.kids.length ≤ cfg.maxSize) ∧
    (∀ m ∈ dirsL t.kids, S.lo ≤ m.kids.length) ∧
    (t.isLeaf = false → S.rlo ≤ t.kids.length) ∧
    ∃ d, ∀ path b v, At t path b v → path.length = d := by
  obtain ⟨h, hw, hp⟩ := reach_wf hg hr
  have hd := dirs_wf h hw.wfn
  refine ⟨?_, ?_, ?_, h + 1, fun path b v ha => at_length h hw.wfn ha⟩
  · obtain ⟨lf, b, p, c, v, ks, rfl⟩ := wfn_cases hw.wfn
    intro m hm
    simp only [dirs, List.mem_cons] at hm
    rcases hm with rfl | hm
    · have := wfn_count hw.wfn
      exact ⟨this, by rw [← this, ← hg.hi]; exact hw.hi⟩
    · obtain ⟨⟨h', hm'⟩, -, h3⟩ := hd m hm
      have := wfn_count hm'
      exact ⟨this, by rw [← this, ← hg.hi]; exact h3⟩
  · intro m hm
    obtain ⟨⟨h', hm'⟩, h2, -⟩ := hd m hm
    rw [← wfn_count hm']; exact h2
  · intro hl
    rw [← wfn_count hw.wfn]
    refine hw.rlo ?_
    cases h with
    | succ h => omega
    | zero =>
      obtain ⟨lf, b, p, c, v, ks, rfl⟩ := wfn_cases hw.wfn
      have := (wfn_dir.1 hw.wfn).1
      simp only [isLeaf] at hl
      simp [hl] at this

/-- The full statement of C54, for every insertion history. -/
theorem C54_occupancy_and_depth {cfg : Cfg D V} (hc : cfg.Ok) {es : List (Box D × V)}
    (hv : ∀ e ∈ es, e.1.Valid) {t : Node D V} (ht : insertAll cfg empty es = .ok t)
    (hlen : es.length ≤ 2 * cfg.minSize ^ (cfg.maxDepth + 1)) :
    (∀ m ∈ dirs t, m.count = m.kids.length ∧ m.kids.length ≤ cfg.maxSize) ∧
    (∀ m ∈ dirsL t.kids, cfg.minSize ≤ m.kids.length) ∧
    (t.isLeaf = false → 2 ≤ t.kids.length) ∧
    ∃ d, ∀ path b v, At t path b v → path.length = d := by
  obtain ⟨t', e, -, -, hr⟩ := C51_insertion_histories hc es hv hlen
  rw [e] at ht; cases ht
  exact C54_shape_partial (good_strict hc) hr

/-- `check_integrity()` accepts every strictly reachable tree whose root is a leaf or holds the
minimum number of children. -/
theorem C54_check_integrity_partial {cfg : Cfg D V} (hc : cfg.Ok) {t : Node D V} {l : List (Box D × V)}
    (hr : Reach (strict cfg) cfg t l) (hroot : t.isLeaf = true ∨ cfg.minSize ≤ t.count) :
    integrityOk cfg t = true := by
  obtain ⟨h, hw, -⟩ := reach_wf (good_strict hc) hr
  exact integrity_root hw hroot

/-- The sample history ends with a root of enough children that is not a leaf. -/
example : okAnd (runOps (demoCfg 2 6 2 true) empty sample)
    (fun t => decide (t.isLeaf = false ∧ 2 ≤ t.count ∧ integrityOk (demoCfg 2 6 2 true) t = true)) = true := by
  decide +kernel

/-- The condition on the root cannot be dropped: `check_integrity()` rejects a tree of seven inserted
points when nodes hold three to six children, because the freshly split root has two. -/
theorem C54_check_integrity_fails : ∃ (cfg : Cfg 2 Nat) (es : List (Box 2 × Nat)) (t : Node 2 Nat), cfg.Ok ∧
    insertAll cfg empty es = .ok t ∧ integrityOk cfg t = false := by
  let cfg := demoCfg 3 6 2 false
  let es : List (Box 2 × Nat) := (List.range 7).map fun i => (px ((i * 37 % 101 : Nat) : Int) ((i * 53 % 97 : Nat) : Int), i)
  have key : okAnd (insertAll cfg empty es) (fun t => ! integrityOk cfg t) = true := by decide +kernel
  obtain ⟨t, h0, h1⟩ := okAnd_iff.1 key
  exact ⟨cfg, es, t, ⟨by decide, by decide, by decide, by decide, by decide⟩, h0, by simpa using h1⟩

/-- With erasures the capacity bound fails: dissolving directories leaves a directory with more
children than the capacity. -/
theorem C54_capacity_after_erase_fails : ∃ (cfg : Cfg 2 Nat) (ops : List (Op 2 Nat)) (t m : Node 2 Nat),
    cfg.Ok ∧ (∀ o ∈ ops, (∃ b v, o = .insert b v) ∨ ∃ q k, o = .erase q k) ∧
    runOps cfg empty ops = .ok t ∧ m ∈ dirs t ∧ cfg.maxSize < m.kids.length := by
  let cfg := demoCfg 2 4 2 false
  let ops : List (Op 2 Nat) := scatter 22 ++ thin 22 7 8
  have key : okAnd (runOps cfg empty ops) (fun t => (dirs t).any fun m => decide (4 < m.kids.length)) = true := by
    decide +kernel
  obtain ⟨t, h0, h1⟩ := okAnd_iff.1 key
  obtain ⟨m, hm, hc⟩ := List.any_eq_true.1 h1
  refine ⟨cfg, ops, t, m, ⟨by decide, by decide, by decide, by decide, by decide⟩, ?_, h0, hm, of_decide_eq_true hc⟩
  intro o ho
  simp only [ops, scatter, thin, List.mem_append, List.mem_map] at ho
  rcases ho with ⟨i, _, rfl⟩ | ⟨i, _, rfl⟩
  · exact Or.inl ⟨_, _, rfl⟩
  · exact Or.inr ⟨_, _, rfl⟩

/-- With erasures the equal-depth property fails. -/
theorem C54_depth_after_erase_fails : ∃ (cfg : Cfg 2 Nat) (ops : List (Op 2 Nat)) (t : Node 2 Nat),
    cfg.Ok ∧ (∀ o ∈ ops, (∃ b v, o = .insert b v) ∨ ∃ q k, o = .erase q k) ∧
    runOps cfg empty ops = .ok t ∧ ¬ ∃ d, ∀ path b v, At t path b v → path.length = d := by
  let cfg := demoCfg 2 4 2 false
  let ops : List (Op 2 Nat) := scatter 45 ++ thin 45 1 3
  have key : okAnd (runOps cfg empty ops) (fun t =>
      (searchBox t area .overlap).any fun x => (searchBox t area .overlap).any fun y =>
        decide (¬ x.path.length = y.path.length)) = true := by
    decide +kernel
  obtain ⟨t, h0, h1⟩ := okAnd_iff.1 key
  obtain ⟨x, hx, h1⟩ := List.any_eq_true.1 h1
  obtain ⟨y, hy, h1⟩ := List.any_eq_true.1 h1
  refine ⟨cfg, ops, t, ⟨by decide, by decide, by decide, by decide, by decide⟩, ?_, h0, ?_⟩
  · intro o ho
    simp only [ops, scatter, thin, List.mem_append, List.mem_map] at ho
    rcases ho with ⟨i, _, rfl⟩ | ⟨i, _, rfl⟩
    · exact Or.inl ⟨_, _, rfl⟩
    · exact Or.inr ⟨_, _, rfl⟩
  · rintro ⟨d, hd⟩
    obtain ⟨r, e1, -, a1, -⟩ := searchN_at _ _ t 0 [] x hx
    obtain ⟨r', e2, -, a2, -⟩ := searchN_at _ _ t 0 [] y hy
    simp only [List.nil_append] at e1 e2
    have l1 := hd _ _ _ a1
    have l2 := hd _ _ _ a2
    simp [e1, e2, l1, l2] at h1

/-! ### C55: bulk loading -/

/-- Whenever `pack()` returns, the tree holds exactly the given entries, no node exceeds the capacity
or is empty, all values sit at the same depth. -/
theorem C55_bulk_contents_partial {cfg : Cfg D V} (hc : cfg.Ok) {vals : List (Box D × V)}
    (hv : ∀ e ∈ vals, e.1.Valid) {t : Node D V} (ht : bulkLoad cfg vals = .ok t) :
    t.entries.Perm vals ∧ size t = vals.length ∧
    (∀ m ∈ dirs t, m.count = m.kids.length ∧ m.kids.length ≤ cfg.maxSize) ∧
    (∀ m ∈ dirsL t.kids, 1 ≤ m.kids.length) ∧
    ∃ d, ∀ path b v, At t path b v → path.length = d := by
  have hr : Reach (bulkShape cfg) cfg t vals := .bulk (Nat.le_refl _) hv ht
  obtain ⟨h, hw, hp⟩ := reach_wf (good_bulk hc) hr
  obtain ⟨h1, h2, -, h3⟩ := C54_shape_partial (good_bulk hc) hr
  exact ⟨hp, hp.length_eq, h1, h2, h3⟩

/-- Thirty entries, three levels. -/
example : okAnd (bulkLoad (demoCfg 2 4 2 true)
      ((List.range 30).map fun i => (px ((i * 37 % 101 : Nat) : Int) ((i * 53 % 97 : Nat) : Int), i)))
    (fun t => decide (size t = 30 ∧ 8 < (dirs t).length ∧ (searchBox t (bx 0 0 50 50) .overlap).length = 8)) = true := by
  decide +kernel

/-- Whenever `pack()` returns, all four searches on the result are exact. -/
theorem C55_bulk_searches_partial {cfg : Cfg D V} (hc : cfg.Ok) {vals : List (Box D × V)}
    (hv : ∀ e ∈ vals, e.1.Valid) {t : Node D V} (ht : bulkLoad cfg vals = .ok t) :
    (∀ p, Exact t vals (Inside p) (searchPt t p .overlap)) ∧
    (∀ p, Exact t vals (fun b => b = ⟨p, p⟩) (searchPt t p .match_)) ∧
    (∀ q : Box D, q.Valid → Exact t vals (Overlap q) (searchBox t q .overlap)) ∧
    (∀ q, Exact t vals (fun b => b = q) (searchBox t q .match_)) := by
  have hr : Reach (bulkShape cfg) cfg t vals := .bulk (Nat.le_refl _) hv ht
  have hg := good_bulk hc
  exact ⟨C50_search_point_overlap_partial hg hr, C50_search_point_match_partial hg hr,
    fun q hq => C50_search_extent_overlap_partial hg hr hq, C50_search_extent_match_partial hg hr⟩

/-- `pack()` returns: for at most `max_node_size ^ (dimensions + 1)` entries in any number of
dimensions, and for any number of entries in one or two dimensions when nodes hold at least three
children (the default is 100). -/
theorem C55_bulk_terminates_partial {cfg : Cfg D V} (hc : cfg.Ok) {vals : List (Box D × V)}
    (hv : ∀ e ∈ vals, e.1.Valid)
    (hn : vals.length ≤ cfg.maxSize ^ (D + 1) ∨ (D ≤ 2 ∧ 3 ≤ cfg.maxSize)) :
    ∃ t, bulkLoad cfg vals = .ok t := by
  have : Shrinks D cfg.minSize cfg.maxSize vals.length := by
    rcases hn with h | ⟨h1, h2⟩
    · exact shrinks_small hc.dims hc.min_pos hc.min_max h
    · exact shrinks_plane hc.dims h1 hc.min_pos hc.min_max h2
  obtain ⟨t, h, e, -⟩ := bulkLoad_ok hc vals hv this
  exact ⟨t, e⟩

theorem packLevels_stuck {cfg : Cfg D V} (hc : cfg.Ok) {n : Nat} (hn : cfg.maxSize < n)
    (hstuck : (cutAllL cfg.minSize cfg.maxSize (splitsPerDim D cfg.maxSize n) D [n]).length = n) :
    ∀ (fuel depth : Nat) (store : List (Node D V)), store.length = n →
      (∀ k ∈ store, Raw (bulkShape cfg) depth k) → packLevels cfg fuel depth store = .error .fuel := by
  intro fuel
  induction fuel with
  | zero => intro depth store _ _; rfl
  | succ fuel ih =>
    intro depth store hl hraw
    have hbig : cfg.maxSize < store.length := by omega
    simp only [packLevels, hbig, if_true]
    obtain ⟨r1, -, -, r4⟩ := packLevel_ok hc hraw hbig
    exact ih _ _ (by rw [r4, hl, hstuck]) r1

/-- C55 fails: with one to two children per node, `pack()` never returns on ten entries, whatever
they are: however many rounds are run, another one is due. -/
theorem C55_bulk_terminates_fails (cfg : Cfg 2 Nat) (hmin : cfg.minSize = 1) (hmax : cfg.maxSize = 2)
    (hc : cfg.Ok) (vals : List (Box 2 × Nat)) (hlen : vals.length = 10) (hv : ∀ e ∈ vals, e.1.Valid) (fuel : Nat) :
    packLevels cfg fuel 0 (vals.map fun x => .val x.1 .null x.2) = .error .fuel := by
  refine packLevels_stuck hc (n := 10) (by omega) (by rw [hmin, hmax]; decide +kernel) fuel 0 _ (by simpa using hlen) ?_
  intro k hk
  simp only [List.mem_map] at hk
  obtain ⟨x, hx, rfl⟩ := hk
  exact ⟨x.1, _, x.2, rfl, hv x hx⟩

end Mdds.RTree
