import Verif.RTree.Reach
import Verif.RTree.Demo
/-!
Which entries `insert` and `erase` keep, for every tree: no shape is asked for, so dissolving several
levels of directories is included, and so are trees whose pointers are partly out of date.
-/
namespace Mdds.RTree

open Node

variable {D : Nat} {V : Type}

/-- A directory. -/
def Node.IsDir : Node D V → Prop
  | .val _ _ _ => False
  | .dir _ _ _ _ _ _ => True

theorem entries_setBox {n : Node D V} (h : n.IsDir) (b : Box D) : (n.setBox b).entries = n.entries := by
  cases n with
  | val => exact h.elim
  | dir => simp

theorem isDir_setBox {n : Node D V} (h : n.IsDir) (b : Box D) : (n.setBox b).IsDir := by
  cases n with
  | val => exact h.elim
  | dir => trivial

theorem isDir_zip (fs : List (Frame D V)) : ∀ {n : Node D V}, n.IsDir → (zip fs n).IsDir := by
  induction fs with
  | nil => intro n h; exact h
  | cons f fs ih => intro n h; exact ih (n := f.plug n) trivial

theorem entries_zip_congr (fs : List (Frame D V)) {n m : Node D V} (h : n.entries = m.entries) :
    (zip fs n).entries = (zip fs m).entries := by
  rw [entries_zip, entries_zip, h]

theorem entries_zip_perm (fs : List (Frame D V)) {n m : Node D V} (h : n.entries.Perm m.entries) :
    (zip fs n).entries.Perm (zip fs m).entries := by
  rw [entries_zip, entries_zip]
  exact (h.append_left _).append_right _

theorem packUp_entries (fs : List (Frame D V)) : ∀ {n r : Node D V}, packUp fs n = .ok r →
    r.entries = (zip fs n).entries := by
  induction fs with
  | nil =>
    intro n r h
    unfold packUp at h
    split at h
    · simp at h; subst h; rfl
    · simp at h
    · simp at h; subst h; simp
    · simp at h
    · simp at *
  | cons f fs ih =>
    intro n r h
    unfold packUp at h
    split at h
    · simp at h; subst h; rfl
    · simp at h
    · simp at h; subst h; simp
    · simp at *
    · rename_i heq
      simp only [List.cons.injEq] at heq
      obtain ⟨rfl, rfl⟩ := heq
      split at h
      · rw [ih h]; exact entries_zip_congr _ (by simp)
      · simp at h; subst h; exact entries_zip_congr _ (by simp)

theorem enlargeUp_entries (bb : Box D) (fs : List (Frame D V)) : ∀ {n r : Node D V}, n.IsDir →
    enlargeUp bb fs n = .ok r → r.entries = (zip fs n).entries := by
  induction fs with
  | nil =>
    intro n r hd h
    unfold enlargeUp at h
    split at h
    · simp at h; subst h; rfl
    · simp at h
    · simp at h; subst h; exact entries_setBox (isDir_zip _ hd) _
    · simp at h
    · simp at *
  | cons f fs ih =>
    intro n r hd h
    unfold enlargeUp at h
    split at h
    · simp at h; subst h; rfl
    · simp at h
    · simp at h; subst h; exact entries_setBox (isDir_zip _ hd) _
    · simp at *
    · rename_i heq
      simp only [List.cons.injEq] at heq
      obtain ⟨rfl, rfl⟩ := heq
      rw [ih (isDir_setBox (n := f.plug n) trivial _) h]
      exact entries_zip_congr _ (entries_setBox (n := f.plug n) trivial _)

theorem shrinkUp_entries (fs : List (Frame D V)) : ∀ {n r : Node D V} {bb : Box D},
    shrinkUp fs n bb = .ok r → r.entries = (zip fs n).entries := by
  induction fs with
  | nil =>
    intro n r bb h
    unfold shrinkUp at h
    split at h
    · simp at h; subst h; rfl
    split at h
    · simp at h; subst h; exact entries_zip_congr _ (by simp)
    split at h
    · simp at h; subst h; exact entries_zip_congr _ (by simp)
    · simp at h
    · dsimp only at h
      split at h <;> simp at h <;> subst h <;> simp [zip]
    · simp at h
    · simp at *
  | cons f fs ih =>
    intro n r bb h
    unfold shrinkUp at h
    split at h
    · simp at h; subst h; rfl
    split at h
    · simp at h; subst h; exact entries_zip_congr _ (by simp)
    split at h
    · simp at h; subst h; exact entries_zip_congr _ (by simp)
    · simp at h
    · dsimp only at h
      split at h <;> simp at h <;> subst h <;> (try rw [entries_pack]) <;> exact entries_zip_congr _ (by simp)
    · simp at *
    · rename_i heq
      simp only [List.cons.injEq] at heq
      obtain ⟨rfl, rfl⟩ := heq
      rw [ih h]
      exact entries_zip_congr _ (by simp [entries_plug])

theorem entriesL_split (cfg : Cfg D V) (hD : 0 < D) (ks : List (Node D V)) (m : Nat) :
    (entriesL ((sortBySplitDim cfg ks).take m) ++ entriesL ((sortBySplitDim cfg ks).drop m)).Perm
      (entriesL ks) := by
  rw [← entriesL_append, List.take_append_drop]
  refine (entriesL_perm (sortBySplitDim_perm cfg hD ks)).trans ?_
  rw [entriesL_map (fun n => entries_inval n)]

theorem entriesL_setPar (p : Par) (ks : List (Node D V)) : entriesL (ks.map (setPar p)) = entriesL ks :=
  entriesL_map (fun n => entries_setPar p n) ks

theorem entries_reset (n : Node D V) : n.reset.entries = n.entries := by
  rw [reset, entries_resetKids, entries_setValid]

theorem splitNode_entries (cfg : Cfg D V) (hD : 0 < D) (fs : List (Frame D V)) : ∀ {n r : Node D V},
    splitNode cfg fs n = .ok r → r.entries.Perm (zip fs n).entries := by
  induction fs with
  | nil =>
    intro n r h
    cases n with
    | val => simp [splitNode] at h
    | dir l b p c v ks =>
      simp only [splitNode] at h
      split at h
      · simp at h
      · simp only [pack, Except.ok.injEq] at h
        subst h
        simp only [entries, entriesL, List.map_cons, List.map_nil, entries_resetKids, entriesL_setPar, zip,
          List.append_nil]
        exact entriesL_split cfg hD ks _
  | cons f fs ih =>
    intro n r h
    cases n with
    | val => simp [splitNode] at h
    | dir l b p c v ks =>
      have key : ∀ (g1 g2 : Node D V) (pb : Box D) (m : Nat),
          g1.entries = entriesL ((sortBySplitDim cfg ks).take m) →
          g2.entries = entriesL ((sortBySplitDim cfg ks).drop m) →
          (zip fs (Node.dir f.leaf pb f.par (f.count + 1) f.valid
            (f.left ++ g1.reset :: f.right ++ [g2.resetKids]))).entries.Perm
          (zip (f :: fs) (Node.dir l b p c v ks)).entries := by
        intro g1 g2 pb m h1 h2
        refine entries_zip_perm fs ?_
        simp only [entries_plug, entries, entriesL_append, entriesL, entries_reset, entries_resetKids, h1, h2,
          List.append_nil, List.append_assoc]
        refine List.Perm.append_left _ ?_
        refine List.Perm.trans ?_ ((entriesL_split cfg hD ks m).append_right _)
        rw [List.append_assoc]
        exact List.perm_append_comm.append_left _
      simp only [splitNode] at h
      split at h
      · simp at h
      · simp at h
      · simp at h
      · split at h
        · exact (ih h).trans (key _ _ _ (group1 cfg (pickDist cfg (sortBySplitDim cfg ks))) (by rw [entries_pack, entries])
              (by rw [entries_pack, entries, entriesL_setPar]))
        · split at h
          · rw [packUp_entries _ h]
            exact key _ _ _ (group1 cfg (pickDist cfg (sortBySplitDim cfg ks))) (by rw [entries_pack, entries])
              (by rw [entries_pack, entries, entriesL_setPar])
          · simp only [Except.ok.injEq] at h
            subst h
            exact key _ _ _ (group1 cfg (pickDist cfg (sortBySplitDim cfg ks))) (by rw [entries_pack, entries])
              (by rw [entries_pack, entries, entriesL_setPar])

theorem plug_take {ks : List (Node D V)} {j : Nat} {k : Node D V} (h : ks[j]? = some k) (l b p c v) :
    (Frame.mk l b p c v (ks.take j) (ks.drop (j + 1))).plug k = .dir l b p c v ks := by
  obtain ⟨hj, rfl⟩ := List.getElem?_eq_some_iff.1 h
  simp [Frame.plug]

theorem findLeaf_zip (A : Arith) (bb : Box D) : ∀ (fuel i : Nat) (fs : List (Frame D V)) (n : Node D V)
    {m fs' d}, findLeaf A bb fuel i fs n = .ok (m, fs', d) → m.IsDir ∧ zip fs' m = zip fs n := by
  intro fuel
  induction fuel with
  | zero => intro i fs n m fs' d h; simp [findLeaf] at h
  | succ fuel ih =>
    intro i fs n m fs' d h
    cases n with
    | val => simp [findLeaf] at h
    | dir l b p c v ks =>
      unfold findLeaf at h
      split at h
      · simp at h; obtain ⟨rfl, rfl, rfl⟩ := h; exact ⟨trivial, rfl⟩
      · dsimp only at h
        generalize (if (Node.dir l b p c v ks).hasLeaf then pickOverlap A bb ks else pickArea A bb ks) = o at h
        cases o with
        | none => dsimp only at h; split at h <;> simp at h
        | some j =>
          dsimp only at h
          split at h
          · simp at h
          · rename_i k hk
            obtain ⟨h1, h2⟩ := ih _ _ _ h
            exact ⟨h1, by rw [h2, zip, plug_take hk]⟩

theorem findNonleaf_zip (A : Arith) (bb : Box D) (maxD : Nat) : ∀ (fuel i : Nat) (fs : List (Frame D V))
    (n : Node D V) {m fs'}, findNonleaf A bb maxD fuel i fs n = .ok (m, fs') → m.IsDir ∧ zip fs' m = zip fs n := by
  intro fuel
  induction fuel with
  | zero => intro i fs n m fs' h; simp [findNonleaf] at h
  | succ fuel ih =>
    intro i fs n m fs' h
    cases n with
    | val => simp [findNonleaf] at h
    | dir l b p c v ks =>
      unfold findNonleaf at h
      dsimp only at h
      split at h
      · simp at h; obtain ⟨rfl, rfl⟩ := h; exact ⟨trivial, rfl⟩
      · split at h
        · simp at h
        · split at h
          · simp at h
          · rename_i k hk
            obtain ⟨h1, h2⟩ := ih _ _ _ h
            exact ⟨h1, by rw [h2, zip, plug_take hk]⟩

theorem push_entries {n : Node D V} (h : n.IsDir) (k : Node D V) :
    (n.push k).IsDir ∧ (n.push k).entries = n.entries ++ k.entries := by
  cases n with
  | val => exact h.elim
  | dir => exact ⟨trivial, by simp [push, entries, entriesL_append, entriesL]⟩

theorem zip_push_entries (fs : List (Frame D V)) {n : Node D V} (h : n.IsDir) (k : Node D V) :
    (zip fs (n.push k)).entries.Perm (k.entries ++ (zip fs n).entries) := by
  rw [entries_zip, entries_zip, (push_entries h k).2]
  classical
  rw [List.perm_iff_count]
  intro a
  simp only [List.count_append]
  omega

theorem entriesL_kids {n : Node D V} (h : n.IsDir) : entriesL n.kids = n.entries := by
  cases n with
  | val => exact h.elim
  | dir => rfl

theorem takeClosest_entries (cfg : Cfg D V) (b : Box D) (ks : List (Node D V)) :
    ((takeClosest cfg b ks).1 ++ (takeClosest cfg b ks).2).Perm ks := by
  unfold takeClosest
  simp only
  generalize hbk : (ks.zipIdx.map fun ki => Bucket.mk (squareDistance cfg.ar (center cfg.ar b) (center cfg.ar ki.1.box)) ki.2) = bk
  generalize hst : cfg.sortBuckets (fun x y => decide (x.distance < y.distance)) bk = st
  have hperm : st.Perm bk := by rw [← hst]; exact cfg.buckets_perm _ _
  have hpos : (st.map Bucket.pos).Perm (List.range ks.length) := by
    refine (hperm.map _).trans ?_
    rw [← hbk, List.map_map]
    have : (Bucket.pos ∘ fun ki : Node D V × Nat => Bucket.mk (squareDistance cfg.ar (center cfg.ar b) (center cfg.ar ki.1.box)) ki.2)
        = Prod.snd := rfl
    rw [this, List.zipIdx_map_snd, List.range_eq_range']
  exact (pick_rest_perm ks ((st.take cfg.reinsertion).map Bucket.pos)
    (by rw [List.map_take]; exact (List.take_sublist _ _).nodup (hpos.nodup_iff.2 List.nodup_range))
    (by
      intro p hp
      rw [List.map_take] at hp
      have := hpos.mem_iff.1 (List.mem_of_mem_take hp)
      simpa using this)).1

theorem foldlM_entries {σ α : Type} (e : σ → List (Box D × V)) (f : σ → α → Except Fault σ)
    (g : α → List (Box D × V)) (hf : ∀ t a r, f t a = .ok r → (e r).Perm (g a ++ e t)) :
    ∀ (as : List α) {t r : σ}, as.foldlM f t = .ok r → (e r).Perm (as.flatMap g ++ e t) := by
  intro as
  induction as with
  | nil =>
    intro t r h
    rw [List.foldlM_nil] at h
    injection h with h
    subst h
    exact .refl _
  | cons a as ih =>
    intro t r h
    rw [List.foldlM_cons] at h
    cases h1 : f t a with
    | error e => rw [h1] at h; injection h
    | ok t1 =>
      rw [h1] at h
      refine (ih h).trans (((hf _ _ _ h1).append_left _).trans ?_)
      rw [List.flatMap_cons]
      classical
      rw [List.perm_iff_count]
      intro x
      simp only [List.count_append]
      omega

theorem insertNS_entries (cfg : Cfg D V) (hD : 0 < D) : ∀ {fuel : Nat} {t : Node D V} {b : Box D} {v : V}
    {ds : Option (List Nat)} {r : Node D V × Option (List Nat)}, insertNS cfg fuel t b v ds = .ok r →
    r.1.entries.Perm ((b, v) :: t.entries) := by
  intro fuel
  induction fuel with
  | zero => intro t b v ds r h; simp [insertNS] at h
  | succ fuel ih =>
    intro t b v ds r h
    unfold insertNS at h
    split at h
    · simp at h
    · rename_i n fs depth hf
      obtain ⟨hd, hz⟩ := findLeaf_zip _ _ _ _ _ _ hf
      have hp := zip_push_entries fs hd (.val b .right v)
      have hd' := (push_entries hd (.val b .right v)).1
      rw [hz, zip] at hp
      dsimp only at h
      generalize n.push (.val b .right v) = m at h hp hd'
      have split_case : ∀ {ds'}, (splitNode cfg fs m).map (fun r => (r, ds')) = .ok r →
          r.1.entries.Perm ((b, v) :: t.entries) := by
        intro ds' h
        cases hs : splitNode cfg fs m with
        | error e => rw [hs] at h; simp [Except.map] at h
        | ok r' =>
          rw [hs] at h; simp [Except.map] at h; subst h
          exact (splitNode_entries cfg hD fs hs).trans hp
      split at h
      · split at h
        · rename_i l
          split at h
          · have hc := entriesL_perm (takeClosest_entries cfg m.box m.kids)
            rw [entriesL_append, entriesL_kids hd'] at hc
            generalize takeClosest cfg m.box m.kids = o at h hc
            obtain ⟨out, rest⟩ := o
            dsimp only at h hc
            split at h
            · simp at h
            · rename_i root' hr
              have e1 : root'.entries = pre fs ++ entriesL rest ++ post fs := by
                split at hr
                · rw [packUp_entries _ hr, entries_zip, entries_pack, entries]
                · simp only [Except.ok.injEq] at hr
                  rw [← hr, entries_zip, entries_pack, entries]
              have e2 := foldlM_entries (fun st : Node D V × Option (List Nat) => st.1.entries) _
                (fun k : Node D V => k.entries) (fun st k r hr => by
                  cases k with
                  | dir => simp at hr
                  | val b p v => simpa [entries] using ih hr) out h
              rw [← entriesL_eq] at e2
              dsimp only at e2
              rw [e1] at e2
              refine e2.trans (List.Perm.trans ?_ hp)
              rw [entries_zip]
              classical
              rw [List.perm_iff_count] at *
              intro a
              have hc := hc a
              simp only [List.count_append] at hc ⊢
              omega
          · exact split_case h
        · exact split_case h
      · generalize (if m.count = 1 then b else enlarge m.box b) = bb at h
        cases hs : enlargeUp bb fs (m.setBox bb) with
        | error e => rw [hs] at h; simp [Except.map] at h
        | ok r' =>
          rw [hs] at h; simp [Except.map] at h; subst h
          dsimp only
          rw [enlargeUp_entries _ _ (isDir_setBox hd' _) hs, entries_zip_congr fs (entries_setBox hd' _)]
          exact hp

theorem insertDir_entries (cfg : Cfg D V) (hD : 0 < D) {t ns r : Node D V} {maxD : Nat}
    (h : insertDir cfg t ns maxD = .ok r) : r.entries.Perm (ns.entries ++ t.entries) := by
  unfold insertDir at h
  split at h
  · simp at h
  · rename_i n fs hf
    obtain ⟨hd, hz⟩ := findNonleaf_zip _ _ _ _ _ _ _ hf
    have hp := zip_push_entries fs hd ((ns.moved .stale).setPar .right).reset
    rw [hz, entries_reset, entries_setPar, entries_moved] at hp
    dsimp only at h
    split at h
    · exact (splitNode_entries cfg hD fs h).trans hp
    · have hd' := (push_entries hd ((ns.moved .stale).setPar .right).reset).1
      rw [enlargeUp_entries _ _ (isDir_setBox hd' _) h, entries_zip_congr fs (entries_setBox hd' _)]
      exact hp

theorem entriesL_eraseKid (l r : List (Node D V)) : entriesL (eraseKid l r) = entriesL l ++ entriesL r := by
  unfold eraseKid
  split
  · rw [entriesL_append]
  · rw [entriesL_map (fun n => entries_inval n), entriesL_append]

theorem entriesL_orphans (ks : List (Node D V)) (d : Nat) :
    (ks.map (fun k => (k.moved .stale, d))).flatMap (fun o => o.1.entries) = entriesL ks := by
  induction ks with
  | nil => rfl
  | cons k ks ih => simp only [List.map_cons, List.flatMap_cons, entries_moved, ih, entriesL]

theorem isDir_pack {n : Node D V} (h : n.IsDir) : n.pack.1.IsDir := by
  cases n with
  | val => exact h.elim
  | dir => trivial

theorem isDir_resetKids {n : Node D V} (h : n.IsDir) : n.resetKids.IsDir := by
  cases n with
  | val => exact h.elim
  | dir => unfold resetKids; split <;> trivial

theorem cascade_entries (cfg : Cfg D V) (fs : List (Frame D V)) : ∀ {n : Node D V} {d : Nat}
    {os : List (Node D V × Nat)} {r}, n.IsDir → cascade cfg fs n d os = .ok r →
    (r.1.entries ++ r.2.flatMap (fun o => o.1.entries)).Perm
      ((zip fs n).entries ++ os.flatMap (fun o => o.1.entries)) := by
  induction fs with
  | nil =>
    intro n d os r hd h
    unfold cascade at h
    split at h
    · simp at h; subst h; exact .refl _
    · split at h <;> simp at *
  | cons f fs ih =>
    intro n d os r hd h
    unfold cascade at h
    split at h
    · simp at h; subst h; exact .refl _
    · split at h
      · rename_i heq
        simp only [List.cons.injEq] at heq
        obtain ⟨rfl, rfl⟩ := heq
        refine (ih (isDir_pack (isDir_resetKids (n := Node.dir f.leaf f.box f.par (f.count - 1) f.valid
          (eraseKid f.left f.right)) trivial)) h).trans ?_
        rw [List.flatMap_append, entriesL_orphans, entriesL_kids hd, entries_zip, entries_pack, entries_resetKids,
          zip, entries_zip, entries_plug, entries, entriesL_eraseKid]
        classical
        rw [List.perm_iff_count]
        intro a
        simp only [List.count_append]
        omega
      · simp at h
      · simp at h

theorem collapse_entries (t : Node D V) : (collapse t).entries = t.entries := by
  unfold collapse
  split
  · split
    · rename_i c hk
      have h : t.IsDir := by
        cases t with
        | val => simp [Node.kids] at hk
        | dir => trivial
      rw [entries_reset, entries_setPar, entries_moved, ← entriesL_kids h, hk]
      simp [entriesL]
    · rfl
  · rfl

/-- The node at the end of a path, with its parent pointer. -/
def parAt : Node D V → List Nat → Option Par
  | n, [] => some n.par
  | .dir _ _ _ _ _ ks, i :: r =>
    match ks[i]? with
    | some k => parAt k r
    | none => none
  | .val _ _ _, _ :: _ => none

theorem locate_at : ∀ (path : List Nat) {fs : List (Frame D V)} {n : Node D V} {xb : Box D} {xv : V} {q : Par}
    {m fs' i}, locate path fs n = some (m, fs', i) → At n path xb xv → parAt n path = some q →
    m.IsDir ∧ zip fs' m = zip fs n ∧ m.kids[i]? = some (.val xb q xv) := by
  intro path
  induction path with
  | nil => intro fs n xb xv q m fs' i h; simp [locate] at h
  | cons j path ih =>
    intro fs n xb xv q m fs' i h ha hq
    cases n with
    | val => simp [At] at ha
    | dir l b p c v ks =>
      obtain ⟨k, hk, ha⟩ := ha
      simp only [parAt, hk] at hq
      cases path with
      | nil =>
        simp only [locate] at h
        split at h
        · simp at h
          obtain ⟨rfl, rfl, rfl⟩ := h
          refine ⟨trivial, rfl, ?_⟩
          cases k with
          | dir => simp [At] at ha
          | val b' p' v' =>
            obtain ⟨rfl, rfl⟩ := ha
            simp [parAt, Node.par] at hq
            subst hq
            exact hk
        · simp at h
      | cons j' path =>
        simp only [locate, hk] at h
        obtain ⟨h1, h2, h3⟩ := ih h ha hq
        exact ⟨h1, by rw [h2, zip, plug_take hk], h3⟩

/-- An erasure that returns removes the designated entry and no other when the parent pointer of the
value node is right. -/
theorem eraseAt_entries (cfg : Cfg D V) (hD : 0 < D) {t t' : Node D V} {path : List Nat} {xb : Box D} {xv : V}
    (ha : At t path xb xv) (hq : parAt t path = some .right) (h : eraseAt cfg t path = .ok t') :
    t.entries.Perm ((xb, xv) :: t'.entries) := by
  unfold eraseAt at h
  split at h
  · simp at h
  · rename_i n fs i hl
    obtain ⟨hd, hz, hk⟩ := locate_at path hl ha hq
    rw [zip] at hz
    rw [hk] at h
    have hkid : entriesL n.kids = entriesL (n.kids.take i) ++ (xb, xv) :: entriesL (n.kids.drop (i + 1)) := by
      obtain ⟨hi, he⟩ := List.getElem?_eq_some_iff.1 hk
      have hs : n.kids = n.kids.take i ++ n.kids[i] :: n.kids.drop (i + 1) := by simp
      rw [he] at hs
      conv_lhs => rw [hs]
      simp [entriesL_append, entriesL, entries]
    have ht : t.entries = pre fs ++ entriesL n.kids ++ post fs := by
      rw [← hz, entries_zip, entriesL_kids hd]
    obtain ⟨l, b, q, c, w, ks, rfl⟩ : ∃ l b q c w ks, n = Node.dir l b q c w ks := by
      cases n with
      | val => exact hd.elim
      | dir l b q c w ks => exact ⟨l, b, q, c, w, ks, rfl⟩
    simp only [Node.par, Node.kids, Node.count] at h hkid ht
    change (if q = .null ∨ cfg.minSize ≤ c - 1 then _ else _) = _ at h
    by_cases hc : q = .null ∨ cfg.minSize ≤ c - 1
    · rw [if_pos hc] at h
      have h1 := shrinkUp_entries fs h
      rw [entries_zip, entries, entriesL_eraseKid] at h1
      rw [h1, ht, hkid]
      classical
      rw [List.perm_iff_count]
      intro a
      simp only [List.count_append, List.count_cons]
      omega
    · rw [if_neg hc] at h
      split at h
      · rename_i f fs
        split at h
        · simp at h
        · rename_i root1 ds hc
          split at h
          · simp at h
          · rename_i root2 h2
            split at h
            · simp at h
            · rename_i root3 h3
              simp only [Except.ok.injEq] at h
              subst h
              have e1 := cascade_entries cfg fs (isDir_pack (isDir_resetKids
                (n := (Node.dir f.leaf f.box f.par (f.count - 1) f.valid (eraseKid f.left f.right)).setValid false)
                trivial)) hc
              rw [entries_zip, entries_pack, entries_resetKids, entries_setValid, entries, entriesL_eraseKid] at e1
              have e2 := foldlM_entries Node.entries _ (fun d : Node D V × Nat => d.1.entries)
                (fun t a r hr => insertDir_entries cfg hD hr) _ h2
              have e3 := foldlM_entries Node.entries _ (fun k : Node D V => k.entries)
                (fun t a r hr => by
                  cases a with
                  | dir => simp at hr
                  | val b p v =>
                    dsimp only at hr
                    cases hs : insertNS cfg (cfg.maxDepth + 2) t b v none with
                    | error e => rw [hs] at hr; simp [Except.map] at hr
                    | ok r' =>
                      rw [hs] at hr; simp [Except.map] at hr; subst hr
                      simpa [entries] using insertNS_entries cfg hD hs) _ h3
              rw [← entriesL_eq] at e3
              have e4 := entriesL_perm (List.reverse_perm (eraseKid (ks.take i) (ks.drop (i + 1))))
              rw [entriesL_eraseKid] at e4
              rw [collapse_entries, ht, hkid]
              classical
              rw [List.perm_iff_count] at *
              intro a
              have e1 := e1 a
              have e2 := e2 a
              have e3 := e3 a
              have e4 := e4 a
              simp only [pre, post, List.flatMap_nil, List.append_nil, List.count_append, List.count_cons]
                at e1 e2 e3 e4 ⊢
              omega
      · simp at h
      · simp at h

/-- When the pointer holds the address of the root although the value lies deeper, nothing is removed. -/
theorem eraseAt_root (cfg : Cfg D V) {t t' : Node D V} {path : List Nat} {xb : Box D} {xv : V}
    (ha : At t path xb xv) (hq : parAt t path = some .root) (h : eraseAt cfg t path = .ok t') :
    t'.entries = t.entries := by
  unfold eraseAt at h
  split at h
  · simp at h
  · rename_i n fs i hl
    obtain ⟨hd, hz, hk⟩ := locate_at path hl ha hq
    rw [hk] at h
    exact shrinkUp_entries [] h

theorem parAt_of_at : ∀ (path : List Nat) {n : Node D V} {b : Box D} {v : V}, At n path b v →
    ∃ q, parAt n path = some q := by
  intro path
  induction path with
  | nil => intro n b v _; exact ⟨n.par, by simp [parAt]⟩
  | cons i path ih =>
    intro n b v ha
    cases n with
    | val => simp [At] at ha
    | dir l b' p c w ks =>
      obtain ⟨k, hk, ha⟩ := ha
      obtain ⟨q, hq⟩ := ih ha
      exact ⟨q, by simp [parAt, hk, hq]⟩

theorem eraseAt_bad (cfg : Cfg D V) {t : Node D V} {path : List Nat} {xb : Box D} {xv : V} {q : Par}
    (ha : At t path xb xv) (hq : parAt t path = some q) (h : q = .null ∨ q = .stale) (t' : Node D V) :
    eraseAt cfg t path ≠ .ok t' := by
  unfold eraseAt
  split
  · simp
  · rename_i n fs i hl
    obtain ⟨hd, hz, hk⟩ := locate_at path hl ha hq
    rw [hk]
    rcases h with rfl | rfl <;> simp [Node.par]

end Mdds.RTree
