import Verif.RTree.Up
import Mathlib.Data.List.Nodup
import Mathlib.Data.List.Perm.Subperm
/-! Insertion: the descent, forced reinsertion, and the main invariant. -/
namespace Mdds.RTree

open Node

variable {D : Nat} {V : Type}

theorem fold_pick {α β : Type} (step : Option β → α → Option β) (P : β → Prop) :
    ∀ (l : List α) (st : Option β), (∀ st, ∀ a ∈ l, (∀ x, st = some x → P x) → ∃ y, step st a = some y ∧ P y) →
      (∀ x, st = some x → P x) → (l ≠ [] ∨ st.isSome) → ∃ y, l.foldl step st = some y ∧ P y := by
  intro l
  induction l with
  | nil =>
    intro st _ hP h
    simp only [ne_eq, not_true_eq_false, false_or] at h
    obtain ⟨y, rfl⟩ := Option.isSome_iff_exists.1 h
    exact ⟨y, rfl, hP y rfl⟩
  | cons a l ih =>
    intro st hs hP _
    obtain ⟨y, e, hy⟩ := hs st a (by simp) hP
    rw [List.foldl_cons, e]
    exact ih (some y) (fun st b hb => hs st b (List.mem_cons_of_mem _ hb)) (by intro x hx; simp at hx; exact hx ▸ hy)
      (Or.inr rfl)

theorem pickOverlap_lt (A : Arith) (bb : Box D) {ks : List (Node D V)} (h : ks ≠ []) :
    ∃ j, pickOverlap A bb ks = some j ∧ j < ks.length := by
  unfold pickOverlap
  obtain ⟨y, e, hy⟩ := fold_pick (fun (st : Option (Int × Int × Int × Nat)) (ki : Node D V × Nat) =>
    let o := ki.1.overlapCost A bb
    let g := areaEnlargement A ki.1.box bb
    let a := calcArea A ki.1.box
    match st with
    | none => some (o, g, a, ki.2)
    | some (mo, mg, ma, p) =>
      if o < mo ∨ g < mg ∨ a < ma then some (o, g, a, ki.2) else some (mo, mg, ma, p))
    (fun x => x.2.2.2 < ks.length) ks.zipIdx none
    (by
      intro st a ha hP
      have hlt : a.2 < ks.length := by
        have := List.snd_lt_of_mem_zipIdx ha; simpa using this
      cases st with
      | none => exact ⟨_, rfl, hlt⟩
      | some x =>
        simp only
        split
        · exact ⟨_, rfl, hlt⟩
        · exact ⟨_, rfl, hP x rfl⟩)
    (by simp) (Or.inl (by simpa using h))
  exact ⟨_, congrArg (Option.map _) e, hy⟩

theorem pickArea_lt (A : Arith) (bb : Box D) {ks : List (Node D V)} (h : ks ≠ []) :
    ∃ j, pickArea A bb ks = some j ∧ j < ks.length := by
  unfold pickArea
  obtain ⟨y, e, hy⟩ := fold_pick (fun (st : Option (Int × Int × Nat)) (ki : Node D V × Nat) =>
    let g := areaEnlargement A ki.1.box bb
    let a := calcArea A ki.1.box
    match st with
    | none => some (g, a, ki.2)
    | some (mg, ma, p) =>
      if g < mg ∨ a < ma then some (g, a, ki.2) else some (mg, ma, p))
    (fun x => x.2.2 < ks.length) ks.zipIdx none
    (by
      intro st a ha hP
      have hlt : a.2 < ks.length := by
        have := List.snd_lt_of_mem_zipIdx ha; simpa using this
      cases st with
      | none => exact ⟨_, rfl, hlt⟩
      | some x =>
        simp only
        split
        · exact ⟨_, rfl, hlt⟩
        · exact ⟨_, rfl, hP x rfl⟩)
    (by simp) (Or.inl (by simpa using h))
  exact ⟨_, congrArg (Option.map _) e, hy⟩

theorem take_cons_drop {α : Type} {l : List α} {j : Nat} {x : α} (h : l[j]? = some x) :
    l.take j ++ x :: l.drop (j + 1) = l := by
  obtain ⟨hj, rfl⟩ := List.getElem?_eq_some_iff.1 h
  rw [← List.drop_eq_getElem_cons hj, List.take_append_drop]

theorem findLeaf_ok {S : Shape} (A : Arith) (bb : Box D) (hlo : 1 ≤ S.lo) (hrl : 1 ≤ S.rlo) : ∀ (h fuel i : Nat)
    {fs : List (Frame D V)} {n : Node D V},
    WFN S h n → Slot S h fs n.par n.count → PathOK S h n.box fs →
    (fuel ≤ h → findLeaf A bb fuel i fs n = .error .maxDepth) ∧
    (h < fuel → ∃ b p c v ks fs', findLeaf A bb fuel i fs n = .ok (.dir true b p c v ks, fs', i + h) ∧
      WFN S 0 (.dir true b p c v ks) ∧ Slot S 0 fs' p c ∧ PathOK S 0 b fs' ∧
      zip fs' (.dir true b p c v ks) = zip fs n ∧ fs'.length = fs.length + h) := by
  intro h
  induction h with
  | zero =>
    intro fuel i fs n hn hs hp
    constructor
    · intro hf
      have : fuel = 0 := by omega
      subst this; rfl
    · intro hf
      obtain ⟨l, b, p, c, v, ks, rfl⟩ := wfn_cases hn
      have hl : l = true := by rw [wfn_dir] at hn; simpa using hn.1
      subst hl
      obtain ⟨fuel, rfl⟩ : ∃ k, fuel = k + 1 := ⟨fuel - 1, by omega⟩
      exact ⟨b, p, c, v, ks, fs, by simp [findLeaf], hn, hs, hp, rfl, rfl⟩
  | succ h ih =>
    intro fuel i fs n hn hs hp
    obtain ⟨l, b, p, c, v, ks, rfl⟩ := wfn_cases hn
    obtain ⟨h1, h2, h3, h4⟩ := wfn_dir.1 hn
    have hl : l = false := by simpa using h1
    subst hl
    have hcpos : 1 ≤ c := by
      cases fs with
      | nil => have := hs.2.2 (by omega); simp only [Node.count] at this; omega
      | cons => have := hs.2.1; simp only [Node.count] at this; omega
    have hne : ks ≠ [] := by rintro rfl; simp at h2; omega
    obtain ⟨j, hj, hjl⟩ : ∃ j, (if (Node.dir false b p c v ks).hasLeaf then pickOverlap A bb ks else pickArea A bb ks)
        = some j ∧ j < ks.length := by
      split
      · exact pickOverlap_lt A bb hne
      · exact pickArea_lt A bb hne
    cases fuel with
    | zero => exact ⟨fun _ => rfl, fun h => by omega⟩
    | succ fuel =>
      have hk : ks[j]? = some ks[j] := List.getElem?_eq_getElem hjl
      have hkid := h4 ks[j] (List.getElem_mem hjl)
      obtain ⟨k1, k2, k3, k4⟩ := hkid
      let f : Frame D V := ⟨false, b, p, c, v, ks.take j, ks.drop (j + 1)⟩
      have hsplit : ks.take j ++ ks[j] :: ks.drop (j + 1) = ks := take_cons_drop hk
      have hpath : PathOK S h ks[j].box (f :: fs) := by
        refine ⟨rfl, ?_, ?_, fun k hk => h4 k (List.mem_of_mem_take hk), fun k hk => h4 k (List.mem_of_mem_drop hk), hs, hp⟩
        · simp only [f, List.length_take, List.length_drop]; omega
        · simp only [f]
          rw [← List.map_cons, ← List.map_append, hsplit]; exact h3
      obtain ⟨r1, r2⟩ := ih fuel (i + 1) (fs := f :: fs) k4 ⟨k1, k2, k3⟩ hpath
      have hstep : findLeaf A bb (fuel + 1) i fs (.dir false b p c v ks) = findLeaf A bb fuel (i + 1) (f :: fs) ks[j] := by
        simp only [findLeaf, hj, hk, f]; simp
      constructor
      · intro hf; rw [hstep]; exact r1 (by omega)
      · intro hf
        obtain ⟨b', p', c', v', ks', fs', e, w, s, pk, z, len⟩ := r2 (by omega)
        refine ⟨b', p', c', v', ks', fs', by rw [hstep, e]; simp; omega, w, s, pk, ?_, ?_⟩
        · rw [z]
          simp only [zip, Frame.plug, f, hsplit]
        · rw [len, List.length_cons]; omega

/-! ### forced reinsertion -/

theorem pick_rest_perm {α : Type} (ks : List α) (ps : List Nat) (hnd : ps.Nodup) (hlt : ∀ p ∈ ps, p < ks.length) :
    (ps.filterMap (ks[·]?) ++ (ks.zipIdx.filter fun ki => ! ps.contains ki.2).map Prod.fst).Perm ks ∧
    (ps.filterMap (ks[·]?)).length = ps.length := by
  have hz : (ks.zipIdx).Nodup := by
    refine List.Nodup.of_map Prod.snd ?_
    rw [List.zipIdx_map_snd]; exact List.nodup_range'
  let tag : Nat → Option (α × Nat) := fun p => (ks[p]?).map fun k => (k, p)
  have hsnd : ∀ qs : List Nat, (∀ p ∈ qs, p < ks.length) → (qs.filterMap tag).map Prod.snd = qs := by
    intro qs
    induction qs with
    | nil => simp
    | cons q qs ih =>
      intro h
      obtain ⟨x, hq⟩ : ∃ x, ks[q]? = some x := ⟨_, List.getElem?_eq_getElem (h q (by simp))⟩
      simp only [List.filterMap_cons, tag, hq, Option.map_some, List.map_cons]
      rw [ih (fun p hp => h p (by simp [hp]))]
  have hfst : ∀ qs : List Nat, (qs.filterMap tag).map Prod.fst = qs.filterMap (ks[·]?) := by
    intro qs
    rw [List.map_filterMap]
    congr 1
    funext p
    simp only [tag, Option.map_map]
    cases ks[p]? <;> rfl
  have hperm : (ps.filterMap tag).Perm (ks.zipIdx.filter fun ki => ps.contains ki.2) := by
    rw [List.perm_ext_iff_of_nodup (List.Nodup.of_map Prod.snd (by rw [hsnd ps hlt]; exact hnd)) (hz.filter _)]
    rintro ⟨a, i⟩
    simp only [List.mem_filterMap, tag, Option.map_eq_some_iff, List.mem_filter, List.mem_zipIdx_iff_getElem?,
      List.contains_iff_mem, Prod.mk.injEq]
    constructor
    · rintro ⟨p, hp, k, hk, rfl, rfl⟩; exact ⟨hk, hp⟩
    · rintro ⟨hk, hp⟩; exact ⟨i, hp, a, hk, rfl, rfl⟩
  constructor
  · rw [← hfst]
    refine ((hperm.map Prod.fst).append_right _).trans ?_
    rw [← List.map_append]
    refine ((List.filter_append_perm _ _).map Prod.fst).trans ?_
    rw [List.zipIdx_map_fst]
  · rw [← hfst, List.length_map, ← List.length_map (f := Prod.snd), hsnd ps hlt]

theorem takeClosest_perm (cfg : Cfg D V) (b : Box D) (ks : List (Node D V)) (hr : cfg.reinsertion ≤ ks.length) :
    ((takeClosest cfg b ks).1 ++ (takeClosest cfg b ks).2).Perm ks ∧
    (takeClosest cfg b ks).1.length = cfg.reinsertion := by
  unfold takeClosest
  simp only
  generalize hbk : (ks.zipIdx.map fun ki => Bucket.mk (squareDistance cfg.ar (center cfg.ar b) (center cfg.ar ki.1.box)) ki.2) = bk
  generalize hst : cfg.sortBuckets (fun x y => decide (x.distance < y.distance)) bk = st
  have hperm : st.Perm bk := by rw [← hst]; exact cfg.buckets_perm _ _
  have hpos : (st.map Bucket.pos).Perm (List.range ks.length) := by
    refine (hperm.map _).trans ?_
    rw [← hbk, List.map_map]
    have : (Bucket.pos ∘ fun ki : Node D V × Nat => Bucket.mk (squareDistance cfg.ar (center cfg.ar b) (center cfg.ar ki.1.box)) ki.2)
        = Prod.snd := rfl
    rw [this, List.zipIdx_map_snd, List.range_eq_range']
  have hlen : st.length = ks.length := by
    have := hpos.length_eq; simpa using this
  obtain ⟨h1, h2⟩ := pick_rest_perm ks ((st.take cfg.reinsertion).map Bucket.pos)
    (by rw [List.map_take]; exact (List.take_sublist _ _).nodup (hpos.nodup_iff.2 List.nodup_range))
    (by
      intro p hp
      rw [List.map_take] at hp
      have := hpos.mem_iff.1 (List.mem_of_mem_take hp)
      simpa using this)
  refine ⟨h1, ?_⟩
  rw [h2]
  simp [hlen, hr]

/-! ### insertion -/

theorem rc_mem (fs : List (Frame D V)) : ∀ c, fs ≠ [] → ∃ f ∈ fs, f.count = rc fs c := by
  induction fs with
  | nil => intro c h; exact absurd rfl h
  | cons f fs ih =>
    intro c _
    cases fs with
    | nil => exact ⟨f, by simp, rfl⟩
    | cons g gs =>
      obtain ⟨x, hx, e⟩ := ih f.count (by simp)
      exact ⟨x, by simp [hx], e⟩

/-- What one insertion leaves behind. -/
def After (h : Nat) (t : Node D V) (h' : Nat) (t' : Node D V) (k : Nat) : Prop :=
  t'.valid = false ∨ (h' = h ∧ t'.valid = t.valid ∧ t'.count ≤ t.count + k)

structure Good (S : Shape) (cfg : Cfg D V) : Prop where
  ok : cfg.Ok
  lo1 : 1 ≤ S.lo
  lo : S.lo ≤ cfg.minSize
  hi : S.hi = cfg.maxSize
  rlo1 : 1 ≤ S.rlo
  rlo2 : S.rlo ≤ 2

/-- The loop that puts the entries taken out back. -/
def reins (cfg : Cfg D V) (fuel : Nat) (st : Node D V × Option (List Nat)) (k : Node D V) :
    Except Fault (Node D V × Option (List Nat)) :=
  match k with
  | .val b _ v => insertNS cfg fuel st.1 b v st.2
  | .dir .. => .error .notFollowed

/-- One insertion: it ends, or it takes entries out and goes on with those. -/
theorem insert_step {S : Shape} {cfg : Cfg D V} (hg : Good S cfg) (nb : Box D) (nv : V) (hnb : nb.Valid)
    (ds : Option (List Nat)) (fuel : Nat) {h : Nat} {t : Node D V} (hw : WFR S h t)
    (hd : h ≤ cfg.maxDepth) (hs : t.valid = false ∨ t.count < S.hi) :
    (∃ t' h', insertNS cfg (fuel + 1) t nb nv ds = .ok (t', ds) ∧ WFR S h' t' ∧
      t'.entries.Perm ((nb, nv) :: t.entries) ∧ After h t h' t' 1 ∧ h ≤ h') ∨
    (∃ l out t', ds = some l ∧ cfg.forced = true ∧ h ∉ l ∧
      insertNS cfg (fuel + 1) t nb nv ds = out.foldlM (reins cfg fuel) (t', some (h :: l)) ∧
      (∀ k ∈ out, Kid S 0 k) ∧ out.length = cfg.reinsertion ∧ WFR S h t' ∧
      (entriesL out ++ t'.entries).Perm ((nb, nv) :: t.entries) ∧ t'.valid = t.valid ∧ t'.count ≤ t.count) := by
  obtain ⟨-, r⟩ := findLeaf_ok (S := S) cfg.ar nb hg.lo1 hg.rlo1 h (cfg.maxDepth + 1) 0 (fs := []) hw.wfn
    ⟨hw.par, hw.hi, hw.rlo⟩ trivial
  obtain ⟨b, p, c, v, ks, fs, e, w, sl, pk, z, len⟩ := r (by omega)
  obtain ⟨-, w2, w3, w4⟩ := wfn_dir.1 w
  have hval : t.valid = rv fs v := by
    have := valid_zip fs (.dir true b p c v ks); rw [z] at this; simpa [zip, Node.valid] using this
  have hcnt : t.count = rc fs c := by
    have := count_zip fs (.dir true b p c v ks); rw [z] at this; simpa [zip, Node.count] using this
  have hent : t.entries = pre fs ++ entriesL ks ++ post fs := by
    have := entries_zip fs (.dir true b p c v ks); rw [z] at this; simpa [zip, entries] using this
  have hkid : Kid S 0 (Node.val nb .right nv : Node D V) := ⟨nb, nv, rfl, hnb⟩
  have hks : ∀ k ∈ ks ++ [Node.val nb .right nv], Kid S 0 k := by
    intro k hk
    rcases List.mem_append.1 hk with hk | hk
    · exact w4 k hk
    · simp at hk; exact hk ▸ hkid
  have hperm : (pre fs ++ entriesL (ks ++ [Node.val nb .right nv]) ++ post fs).Perm ((nb, nv) :: t.entries) := by
    rw [hent, entriesL_append]
    simp only [entriesL, entries, List.append_nil, List.append_assoc]
    refine List.Perm.trans ?_ List.perm_middle
    refine List.Perm.append_left _ ?_
    exact List.perm_middle
  have hcle : c ≤ S.hi := by
    cases fs with
    | nil => exact sl.2.1
    | cons => exact sl.2.2
  by_cases hover : cfg.maxSize < c + 1
  · have hc : c = cfg.maxSize := by have := hg.hi; omega
    have hlen : (ks ++ [Node.val nb .right nv]).length = cfg.maxSize + 1 := by simp; omega
    by_cases hre : ∃ l, ds = some l ∧ cfg.forced = true ∧ h ∉ l
    · -- forced reinsertion
      right
      obtain ⟨l, rfl, hf, hnl⟩ := hre
      generalize hks' : ks ++ [Node.val nb .right nv] = ks' at hks hperm hlen
      obtain ⟨q1, q2⟩ := takeClosest_perm cfg b ks' (by have := hg.ok.reins_le; have := hg.ok.min_pos; omega)
      generalize hout : (takeClosest cfg b ks').1 = out at q1 q2
      generalize hrest : (takeClosest cfg b ks').2 = rest at q1
      have hok : ∀ k ∈ out ++ rest, Kid S 0 k := fun k hk => hks k (q1.mem_iff.1 hk)
      have hrl : rest.length = c + 1 - cfg.reinsertion := by
        have := q1.length_eq; rw [List.length_append, q2, hlen] at this; omega
      have := hg.ok.reins_le
      have := hg.ok.min_max
      have := hg.ok.min_pos
      have := hg.ok.reins_pos
      have hwf : WFN S 0 (.dir true (ext (rest.map box)) p (c + 1 - cfg.reinsertion) v rest) :=
        wfn_dir.2 ⟨rfl, hrl.symm, ext_fits _ _, fun k hk => hok k (List.mem_append_right _ hk)⟩
      have hslot : Slot S 0 fs p (c + 1 - cfg.reinsertion) := by
        have := hg.lo; have := hg.hi
        clear * - sl hc this hg
        have := hg.lo; have := hg.hi; have := hg.ok.reins_le
        have := hg.ok.min_max
        have := hg.ok.min_pos
        have := hg.ok.reins_pos
        cases fs with
        | nil => exact ⟨sl.1, by omega, fun h => absurd h (by omega)⟩
        | cons => exact ⟨sl.1, by omega, by omega⟩
      have hroot : ∃ t', (if (Node.dir true b p (c + 1 - cfg.reinsertion) v rest).pack.2
          then packUp fs (Node.dir true b p (c + 1 - cfg.reinsertion) v rest).pack.1
          else .ok (zip fs (Node.dir true b p (c + 1 - cfg.reinsertion) v rest).pack.1)) = .ok t' ∧
          WFR S (0 + fs.length) t' ∧ t'.entries = pre fs ++ entriesL rest ++ post fs ∧
          t'.valid = rv fs v ∧ t'.count = rc fs (c + 1 - cfg.reinsertion) := by
        by_cases hch : ext (rest.map box) = b
        · refine ⟨zip fs (.dir true (ext (rest.map box)) p (c + 1 - cfg.reinsertion) v rest), ?_, ?_, ?_, ?_, ?_⟩
          · simp [pack, hch]
          · exact zip_wf fs hwf hslot (by rw [box, hch]; exact pk)
          · rw [entries_zip]; rfl
          · rw [valid_zip]; rfl
          · rw [count_zip]; rfl
        · obtain ⟨t', e1, e2, e3, e4, e5⟩ := packUp_ok (S := S) fs hwf hslot pk
          exact ⟨t', by simp only [pack, ne_eq, hch, not_false_eq_true, decide_true, if_true]; exact e1,
            e2, e3, e4, e5⟩
      obtain ⟨t', e1, e2, e3, e4, e5⟩ := hroot
      have hfs : 0 + fs.length = h := by simp at len; omega
      refine ⟨l, out, t', rfl, hf, hnl, ?_, fun k hk => hok k (List.mem_append_left _ hk), q2, hfs ▸ e2, ?_, ?_, ?_⟩
      · have hcond : (cfg.forced && ! l.contains h) = true := by simp [hf, hnl]
        simp only [insertNS, e, Nat.zero_add, push, isLeaf, count, Bool.true_and, decide_eq_true_eq, gt_iff_lt, hover,
          if_true, hcond, box, kids, par, valid, hks', hout, hrest, e1]
        rfl
      · rw [e3]
        refine List.Perm.trans ?_ hperm
        have := (entriesL_perm q1)
        rw [entriesL_append] at this
        refine List.Perm.trans ?_ ((this.append_left (pre fs)).append_right (post fs))
        rw [← List.append_assoc, ← List.append_assoc, ← List.append_assoc]
        exact ((List.perm_append_comm).append_right _).append_right _
      · rw [e4, hval]
      · rw [e5, hcnt]
        cases fs with
        | nil => simp only [rc]; omega
        | cons => exact Nat.le_refl _
    -- split
    left
    have hsplit : insertNS cfg (fuel + 1) t nb nv ds =
        (splitNode cfg fs (.dir true b p (c + 1) v (ks ++ [Node.val nb .right nv]))).map fun r => (r, ds) := by
      simp only [insertNS, e, Nat.zero_add, push, isLeaf, count, Bool.true_and, decide_eq_true_eq, gt_iff_lt, hover,
        if_true]
      cases ds with
      | none => rfl
      | some l =>
        have : (cfg.forced && ! l.contains h) = false := by
          cases hf : cfg.forced with
          | false => rfl
          | true =>
            have : h ∈ l := by
              by_contra hn
              exact hre ⟨l, rfl, hf, hn⟩
            simp [this]
        simp only [this]
        rfl
    have hsafe : SplitSafe S.hi fs v := by
      rcases hs with hs | hs
      · exact Or.inl (by rw [← hval]; exact hs)
      · right
        have hne : fs ≠ [] := by
          rintro rfl
          simp only [rc] at hcnt
          have := hg.hi; omega
        obtain ⟨f, hf, e⟩ := rc_mem fs c hne
        exact ⟨f, hf, by rw [e, ← hcnt]; exact hs⟩
    obtain ⟨t', h', e1, e2, e3, e4⟩ := splitNode_ok (S := S) hg.ok hg.lo hg.hi hg.rlo2 fs (h := 0) (l := true)
      (b := b) (p := p) (c := c + 1) (v := v) (ks := ks ++ [Node.val nb .right nv]) (bo := b)
      rfl (by simp; omega) hks (by clear * - sl; cases fs <;> exact sl.1) pk hsafe
    refine ⟨t', h', by rw [hsplit, e1]; rfl, e2, e3.trans hperm, ?_, by
      simp at len; rcases e4 with ⟨_, e4⟩ | ⟨e4, _⟩ <;> omega⟩
    rcases e4 with ⟨e4, _⟩ | ⟨e4, e5, e6, e7⟩
    · exact Or.inl e4
    · right
      refine ⟨by simp at len; omega, by rw [e5, hval], ?_⟩
      have : rc fs (c + 1) = rc fs c := by cases fs with
        | nil => exact absurd rfl e6
        | cons => rfl
      rw [hcnt]; omega
  · left
    let bb := if c + 1 = 1 then nb else enlarge b nb
    have hins : insertNS cfg (fuel + 1) t nb nv ds =
        (enlargeUp bb fs (.dir true bb p (c + 1) v (ks ++ [Node.val nb .right nv]))).map fun r => (r, ds) := by
      simp only [insertNS, e, push, isLeaf, count, Bool.true_and, decide_eq_true_eq, gt_iff_lt, hover,
        if_false, box, bb]
      rfl
    have hfits : Fits S.tight bb ((ks ++ [Node.val nb .right nv]).map Node.box) := by
      simp only [List.map_append, List.map_cons, List.map_nil, box]
      by_cases h0 : ks = []
      · subst h0
        have : c = 0 := by simpa using w2
        simp only [bb, this]
        exact fits_single _ _
      · have : ¬ (c + 1 = 1) := by
          have := List.length_pos_of_ne_nil h0; omega
        simp only [bb, this, if_false]
        exact fits_push (by simpa using h0) w3
    have hwf : WFN S 0 (.dir true bb p (c + 1) v (ks ++ [Node.val nb .right nv])) :=
      wfn_dir.2 ⟨rfl, by simp; omega, hfits, hks⟩
    have hslot : Slot S 0 fs p (c + 1) := by
      cases fs with
      | nil => exact ⟨sl.1, by have := hg.hi; omega, fun h => absurd h (by omega)⟩
      | cons => exact ⟨sl.1, by have := sl.2.1; omega, by have := hg.hi; omega⟩
    have hbo : ∃ bo, PathOK S 0 bo fs ∧ enlarge bo bb = bb := by
      by_cases h0 : c + 1 = 1
      · have : fs = [] := by
          cases fs with
          | nil => rfl
          | cons => have := sl.2.1; have := hg.lo1; omega
        subst this
        exact ⟨bb, trivial, enlarge_self _⟩
      · refine ⟨b, pk, ?_⟩
        simp only [bb, h0, if_false]
        exact enlarge_absorb _ _
    obtain ⟨bo, hbo1, hbo2⟩ := hbo
    obtain ⟨t', e1, e2, e3, e4, e5⟩ := enlargeUp_ok (S := S) fs hwf hslot hbo1 hbo2 (enlarge_self _) (enlarge_self _)
    refine ⟨t', 0 + fs.length, by rw [hins, e1]; rfl, e2, by rw [e3]; simpa [entries] using hperm, ?_,
      by simp at len; omega⟩
    right
    refine ⟨by simp at len; omega, by rw [e4, hval]; rfl, ?_⟩
    rw [e5, hcnt]
    simp only [count]
    cases fs with
    | nil => simp [rc]
    | cons => simp [rc]

/-- A tree deeper than the traits allow, with at most `N` entries. -/
def TooDeep (S : Shape) (cfg : Cfg D V) (N : Nat) : Prop :=
  ∃ h, ∃ t : Node D V, cfg.maxDepth < h ∧ WFR S h t ∧ t.entries.length ≤ N

theorem TooDeep.mono {S : Shape} {cfg : Cfg D V} {N M : Nat} (h : TooDeep S cfg N) (hm : N ≤ M) : TooDeep S cfg M := by
  obtain ⟨h, t, a, b, c⟩ := h; exact ⟨h, t, a, b, by omega⟩

/-- The set of reinserted depths. -/
def Depths (cfg : Cfg D V) (l : List Nat) : Prop := l.Nodup ∧ ∀ d ∈ l, d ≤ cfg.maxDepth

theorem Depths.length {cfg : Cfg D V} {l : List Nat} (h : Depths cfg l) : l.length ≤ cfg.maxDepth + 1 := by
  have : l ⊆ List.range (cfg.maxDepth + 1) := by
    intro d hd; have := h.2 d hd; simp; omega
  have := (List.subperm_of_subset h.1 this).length_le
  simpa using this

def Outcome (S : Shape) (cfg : Cfg D V) (h : Nat) (t : Node D V) (l : List Nat) (new : List (Box D × V)) (k N : Nat)
    (r : Except Fault (Node D V × Option (List Nat))) : Prop :=
  (∃ t' h' l', r = .ok (t', some l') ∧ WFR S h' t' ∧ t'.entries.Perm (new ++ t.entries) ∧ After h t h' t' k ∧
    Depths cfg l' ∧ l ⊆ l' ∧ l.length ≤ l'.length) ∨
  (r = .error .maxDepth ∧ TooDeep S cfg N)

def InsertSpec (S : Shape) (cfg : Cfg D V) (fuel : Nat) : Prop :=
  ∀ (t : Node D V) (h : Nat) (l : List Nat) (nb : Box D) (nv : V), nb.Valid → WFR S h t → Depths cfg l →
    cfg.maxDepth + 2 ≤ fuel + l.length →
    (t.valid = false ∨ (cfg.forced = true → h ∈ l) ∧ t.count < S.hi) →
    Outcome S cfg h t l [(nb, nv)] 1 t.entries.length (insertNS cfg fuel t nb nv (some l))

theorem reins_ok {S : Shape} {cfg : Cfg D V} {fuel : Nat} (hQ : InsertSpec S cfg fuel) : ∀ (out : List (Node D V))
    (t : Node D V) (h : Nat) (l : List Nat), (∀ k ∈ out, Kid S 0 k) → WFR S h t → Depths cfg l →
    cfg.maxDepth + 2 ≤ fuel + l.length →
    (t.valid = false ∨ (cfg.forced = true → h ∈ l) ∧ t.count + out.length ≤ S.hi) →
    Outcome S cfg h t l (entriesL out) out.length (t.entries.length + out.length - 1)
      (out.foldlM (reins cfg fuel) (t, some l)) := by
  intro out
  induction out with
  | nil =>
    intro t h l _ hw hd hf hs
    left
    exact ⟨t, h, l, rfl, hw, by simp [entriesL], Or.inr ⟨rfl, rfl, by simp⟩, hd, fun _ h => h, Nat.le_refl _⟩
  | cons k out ih =>
    intro t h l hk hw hd hf hs
    obtain ⟨kb, kv, rfl, hkb⟩ := hk k (by simp)
    have hs1 : t.valid = false ∨ (cfg.forced = true → h ∈ l) ∧ t.count < S.hi := by
      rcases hs with h0 | ⟨h0, h1⟩
      · exact Or.inl h0
      · exact Or.inr ⟨h0, by simp at h1; omega⟩
    rw [List.foldlM_cons]
    rcases hQ t h l kb kv hkb hw hd hf hs1 with ⟨t1, h1, l1, e1, w1, p1, a1, d1, sub1, len1⟩ | ⟨e1, td⟩
    · have e1' : reins cfg fuel (t, some l) (Node.val kb .right kv) = .ok (t1, some l1) := e1
      rw [e1']
      have hlen1 : t1.entries.length = t.entries.length + 1 := by rw [p1.length_eq]; simp
      have hs2 : t1.valid = false ∨ (cfg.forced = true → h1 ∈ l1) ∧ t1.count + out.length ≤ S.hi := by
        rcases a1 with a1 | ⟨rfl, a2, a3⟩
        · exact Or.inl a1
        · rcases hs with h0 | ⟨h0, h1'⟩
          · exact Or.inl (a2.trans h0)
          · exact Or.inr ⟨fun hf => sub1 (h0 hf), by simp at h1'; omega⟩
      rcases ih t1 h1 l1 (fun k hk' => hk k (by simp [hk'])) w1 d1 (by omega) hs2 with
        ⟨t2, h2, l2, e2, w2, p2, a2, d2, sub2, len2⟩ | ⟨e2, td⟩
      · left
        refine ⟨t2, h2, l2, e2, w2, ?_, ?_, d2, fun _ h => sub2 (sub1 h), by omega⟩
        · refine p2.trans ?_
          refine (p1.append_left _).trans ?_
          simp only [entriesL, entries, List.cons_append, List.nil_append]
          exact List.perm_middle
        · rcases a2 with a2 | ⟨rfl, b2, c2⟩
          · exact Or.inl a2
          · rcases a1 with a1 | ⟨rfl, b1, c1⟩
            · exact Or.inl (b2.trans a1)
            · exact Or.inr ⟨rfl, b2.trans b1, by simp; omega⟩
      · right
        exact ⟨e2, td.mono (by simp; omega)⟩
    · right
      have e1' : reins cfg fuel (t, some l) (Node.val kb .right kv) = .error .maxDepth := e1
      rw [e1']
      exact ⟨rfl, td.mono (by simp)⟩

theorem insert_too_deep {S : Shape} {cfg : Cfg D V} (hg : Good S cfg) (nb : Box D) (nv : V) (ds : Option (List Nat))
    (fuel : Nat) {h : Nat} {t : Node D V} (hw : WFR S h t) (hd : cfg.maxDepth < h) :
    insertNS cfg (fuel + 1) t nb nv ds = .error .maxDepth := by
  obtain ⟨r, -⟩ := findLeaf_ok (S := S) cfg.ar nb hg.lo1 hg.rlo1 h (cfg.maxDepth + 1) 0 (fs := []) hw.wfn
    ⟨hw.par, hw.hi, hw.rlo⟩ trivial
  simp only [insertNS, r (by omega)]

/-- Insertion from any state in which the root can be split or need not be. -/
theorem insert_gen {S : Shape} {cfg : Cfg D V} (hg : Good S cfg) {fuel : Nat} (hQ : InsertSpec S cfg fuel)
    {t : Node D V} {h : Nat} {l : List Nat} {nb : Box D} {nv : V} (hnb : nb.Valid) (hw : WFR S h t)
    (hd : Depths cfg l) (hfu : cfg.maxDepth + 2 ≤ fuel + 1 + l.length)
    (hs : t.valid = false ∨ (cfg.forced = true → h ∈ l) ∧ t.count < S.hi ∨ t.count + cfg.reinsertion ≤ S.hi) :
    Outcome S cfg h t l [(nb, nv)] (max 1 cfg.reinsertion) t.entries.length
      (insertNS cfg (fuel + 1) t nb nv (some l)) ∧
    ((t.valid = false ∨ (cfg.forced = true → h ∈ l) ∧ t.count < S.hi) →
      Outcome S cfg h t l [(nb, nv)] 1 t.entries.length (insertNS cfg (fuel + 1) t nb nv (some l))) := by
  have hr := hg.ok.reins_pos
  by_cases hdep : cfg.maxDepth < h
  · have := insert_too_deep hg nb nv (some l) fuel hw hdep
    have td : TooDeep S cfg t.entries.length := ⟨h, t, hdep, hw, Nat.le_refl _⟩
    exact ⟨Or.inr ⟨this, td⟩, fun _ => Or.inr ⟨this, td⟩⟩
  have hs' : t.valid = false ∨ t.count < S.hi := by
    rcases hs with h0 | ⟨_, h0⟩ | h0
    · exact Or.inl h0
    · exact Or.inr h0
    · exact Or.inr (by omega)
  rcases insert_step hg nb nv hnb (some l) fuel hw (by omega) hs' with
    ⟨t', h', e, w, p, a, -⟩ | ⟨l', out, t', el, hf, hnl, e, hk, hol, w, p, hv, hc⟩
  · constructor
    · refine Or.inl ⟨t', h', l, e, w, p, ?_, hd, fun _ h => h, Nat.le_refl _⟩
      rcases a with a | ⟨a, b, c⟩
      · exact Or.inl a
      · exact Or.inr ⟨a, b, by omega⟩
    · intro _
      exact Or.inl ⟨t', h', l, e, w, p, a, hd, fun _ h => h, Nat.le_refl _⟩
  · cases el
    have hd' : Depths cfg (h :: l) := ⟨List.nodup_cons.2 ⟨hnl, hd.1⟩, by
      intro d hd'
      rcases List.mem_cons.1 hd' with rfl | h0
      · omega
      · exact hd.2 d h0⟩
    have hs2 : t'.valid = false ∨ (cfg.forced = true → h ∈ h :: l) ∧ t'.count + out.length ≤ S.hi := by
      rcases hs with h0 | ⟨h0, _⟩ | h0
      · exact Or.inl (hv.trans h0)
      · exact absurd (h0 hf) hnl
      · exact Or.inr ⟨fun _ => by simp, by omega⟩
    have hlen : t'.entries.length + out.length - 1 = t.entries.length := by
      have := p.length_eq
      have ho : (entriesL out).length = out.length := by
        clear * - hk
        induction out with
        | nil => rfl
        | cons k out ih =>
          obtain ⟨kb, kv, rfl, _⟩ := hk k (by simp)
          simp only [entriesL, entries, List.cons_append, List.nil_append, List.length_cons]
          rw [ih (fun k hk' => hk k (by simp [hk']))]
      simp at this; omega
    have main := reins_ok hQ out t' h (h :: l) hk w hd' (by simp; omega) hs2
    rw [hlen, hol] at main
    rw [e]
    rcases main with ⟨t2, h2, l2, e2, w2, p2, a2, d2, sub2, len2⟩ | ⟨e2, td⟩
    · have sub : l ⊆ l2 := fun x hx => sub2 (List.mem_cons_of_mem _ hx)
      have len : l.length ≤ l2.length := by simp at len2; omega
      constructor
      · refine Or.inl ⟨t2, h2, l2, e2, w2, p2.trans p, ?_, d2, sub, len⟩
        rcases a2 with a2 | ⟨a2, b2, c2⟩
        · exact Or.inl a2
        · exact Or.inr ⟨a2, b2.trans hv, by omega⟩
      · intro hs3
        refine Or.inl ⟨t2, h2, l2, e2, w2, p2.trans p, ?_, d2, sub, len⟩
        rcases hs3 with h0 | ⟨h0, _⟩
        · rcases a2 with a2 | ⟨a2, b2, c2⟩
          · exact Or.inl a2
          · exact Or.inl (b2.trans (hv.trans h0))
        · exact absurd (h0 hf) hnl
    · exact ⟨Or.inr ⟨e2, td⟩, fun _ => Or.inr ⟨e2, td⟩⟩

theorem insertSpec {S : Shape} {cfg : Cfg D V} (hg : Good S cfg) : ∀ fuel, InsertSpec S cfg fuel := by
  intro fuel
  induction fuel with
  | zero =>
    intro t h l nb nv _ _ hd hf _
    have := hd.length; omega
  | succ fuel ih =>
    intro t h l nb nv hnb hw hd hf hs
    refine (insert_gen hg ih hnb hw hd hf ?_).2 hs
    rcases hs with h0 | h0
    · exact Or.inl h0
    · exact Or.inr (Or.inl h0)

/-- `insert`: adds exactly the entry, or throws because the tree is deeper than allowed. -/
theorem insert_ok {S : Shape} {cfg : Cfg D V} (hg : Good S cfg) {t : Node D V} {h : Nat} (nb : Box D) (nv : V)
    (hnb : nb.Valid) (hw : WFR S h t)
    (hs : t.valid = false ∨ (cfg.forced = false ∧ t.count < S.hi) ∨ t.count + cfg.reinsertion ≤ S.hi) :
    (∃ t' h', insert cfg t nb nv = .ok t' ∧ WFR S h' t' ∧ t'.entries.Perm ((nb, nv) :: t.entries) ∧
      (t.valid = false → t'.valid = false) ∧
      After h t h' t' (max 1 cfg.reinsertion)) ∨
    (insert cfg t nb nv = .error .maxDepth ∧ TooDeep S cfg t.entries.length) := by
  have := (insert_gen hg (insertSpec hg (cfg.maxDepth + 1)) (l := []) (nv := nv) hnb hw ⟨List.nodup_nil, by simp⟩ (by simp)
    (by
      rcases hs with h0 | ⟨h0, h1⟩ | h0
      · exact Or.inl h0
      · exact Or.inr (Or.inl ⟨fun h => by simp [h0] at h, h1⟩)
      · exact Or.inr (Or.inr h0))).1
  rcases this with ⟨t', h', l', e, w, p, a, -⟩ | ⟨e, td⟩
  · left
    refine ⟨t', h', by unfold insert; rw [e]; rfl, w, p, ?_, a⟩
    intro hv
    rcases a with a | ⟨_, b, _⟩
    · exact a
    · exact b.trans hv
  · right
    exact ⟨by unfold insert; rw [e]; rfl, td⟩

/-! ### the height of a tree is bounded by the number of entries -/

theorem entries_ge {S : Shape} : ∀ (h : Nat) {n : Node D V}, WFN S h n → n.count * S.lo ^ h ≤ n.entries.length := by
  intro h
  induction h with
  | zero =>
    intro n hn
    obtain ⟨l, b, p, c, v, ks, rfl⟩ := wfn_cases hn
    obtain ⟨-, h2, -, h4⟩ := wfn_dir.1 hn
    simp only [count, Nat.pow_zero, Nat.mul_one, entries, h2]
    clear * - h4
    induction ks with
    | nil => simp
    | cons k ks ih =>
      obtain ⟨kb, kv, rfl, _⟩ := h4 k (by simp)
      have := ih (fun k hk => h4 k (by simp [hk]))
      simp only [entriesL, entries, List.length_append, List.length_cons, List.length_nil]
      omega
  | succ h ih =>
    intro n hn
    obtain ⟨l, b, p, c, v, ks, rfl⟩ := wfn_cases hn
    obtain ⟨-, h2, -, h4⟩ := wfn_dir.1 hn
    simp only [count, entries, h2]
    clear * - h4 ih
    induction ks with
    | nil => simp
    | cons k ks ih2 =>
      obtain ⟨_, k2, _, k4⟩ := h4 k (by simp)
      have h1 := ih2 (fun k hk => h4 k (by simp [hk]))
      have h2 := ih k4
      have h3 : S.lo ^ (h + 1) ≤ k.entries.length := by
        rw [Nat.pow_succ, Nat.mul_comm]
        exact Nat.le_trans (Nat.mul_le_mul_right _ k2) h2
      simp only [entriesL, List.length_append, List.length_cons, Nat.add_mul, Nat.one_mul]
      omega

theorem TooDeep.bound {S : Shape} {cfg : Cfg D V} {N : Nat} (h1 : 1 ≤ S.lo) (h : TooDeep S cfg N) :
    S.rlo * S.lo ^ (cfg.maxDepth + 1) ≤ N := by
  obtain ⟨h, t, hd, hw, hN⟩ := h
  have h2 := entries_ge h hw.wfn
  have h3 := hw.rlo (by omega)
  have h4 : S.lo ^ (cfg.maxDepth + 1) ≤ S.lo ^ h := Nat.pow_le_pow_right h1 (by omega)
  calc S.rlo * S.lo ^ (cfg.maxDepth + 1) ≤ t.count * S.lo ^ h := Nat.mul_le_mul h3 h4
    _ ≤ N := Nat.le_trans h2 hN

end Mdds.RTree
